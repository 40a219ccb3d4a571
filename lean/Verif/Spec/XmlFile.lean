import Verif.Go.Sort
import Verif.Go.Base64
import Verif.Rbxlx.Document
import Verif.Rbxlx.CodecValue
import Verif.Spec.Binary
import Verif.Spec.Tree
import Verif.Spec.Xml
import Mathlib.Data.List.Forall2
/-!
# Specification vocabulary: the layout of an XML file

These definitions say which elements a file of a tree has to have, and in which order, without reference to how they are made.
-/
namespace Spec
open Go Rbxfile Rbxlx

variable {ρ : Type} [DecidableEq ρ]

/-- The names of an element and of the elements within. -/
inductive Skeleton where
  | mk (name : Bytes) (parts : List Skeleton)

mutual
/-- The names in an element. -/
def skeleton : Tag → Skeleton
  | ⟨h, ts⟩ => .mk h.startName (skeletons ts)
/-- The names in elements. -/
def skeletons : List Tag → List Skeleton
  | [] => []
  | t :: ts => skeleton t :: skeletons ts
end

/-- Elements without elements within. -/
def leaves (names : List String) : List Skeleton := names.map fun n => .mk (str n) []

/-- The components of a CFrame. -/
def frameParts : List Skeleton :=
  leaves ["X", "Y", "Z", "R00", "R01", "R02", "R10", "R11", "R12", "R20", "R21", "R22"]

/-- The element for a Content. -/
def contentParts (s : Bytes) : List Skeleton := if s = [] then leaves ["null"] else leaves ["url"]

/-- The name of the element for an Optional of a type. -/
def optionalName : Ty → Bytes
  | .axes => str "OptionalAxes" | .binaryString => str "OptionalBinaryString" | .bool => str "Optionalbool"
  | .brickColor => str "OptionalBrickColor" | .cframe => str "OptionalCoordinateFrame" | .color3 => str "OptionalColor3"
  | .content => str "OptionalContent" | .double => str "Optionaldouble" | .faces => str "OptionalFaces" | .float => str "Optionalfloat"
  | .int => str "Optionalint" | .protectedString => str "OptionalProtectedString" | .ray => str "OptionalRay"
  | .reference => str "OptionalObject" | .string => str "Optionalstring" | .token => str "Optionaltoken" | .udim => str "OptionalUDim"
  | .udim2 => str "OptionalUDim2" | .vector2 => str "OptionalVector2" | .vector2int16 => str "OptionalVector2int16"
  | .vector3 => str "OptionalVector3" | .vector3int16 => str "OptionalVector3int16"
  | .numberSequence => str "OptionalNumberSequence" | .colorSequence => str "OptionalColorSequence"
  | .numberRange => str "OptionalNumberRange" | .rect => str "OptionalRect2D"
  | .physicalProperties => str "OptionalPhysicalProperties" | .color3uint8 => str "OptionalColor3uint8"
  | .int64 => str "Optionalint64" | .sharedString => str "OptionalSharedString" | .uniqueId => str "OptionalUniqueId"
  | .font => str "OptionalFont" | .invalid => str "Optional" | .optional => str "Optional"

/-- The names in the element for a value. A BrickColor is written as an `int`. -/
def valueSkeleton : Value ρ → Skeleton
  | .axes .. => .mk (str "Axes") (leaves ["axes"])
  | .binaryString _ => .mk (str "BinaryString") []
  | .bool _ => .mk (str "bool") []
  | .brickColor _ => .mk (str "int") []
  | .cframe .. => .mk (str "CoordinateFrame") frameParts
  | .color3 _ => .mk (str "Color3") (leaves ["R", "G", "B"])
  | .content s => .mk (str "Content") (contentParts s)
  | .double _ => .mk (str "double") []
  | .faces .. => .mk (str "Faces") (leaves ["faces"])
  | .float _ => .mk (str "float") []
  | .int _ => .mk (str "int") []
  | .protectedString _ => .mk (str "ProtectedString") []
  | .ray .. => .mk (str "Ray") [.mk (str "origin") (leaves ["X", "Y", "Z"]), .mk (str "direction") (leaves ["X", "Y", "Z"])]
  | .reference _ => .mk (str "Ref") []
  | .string _ => .mk (str "string") []
  | .token _ => .mk (str "token") []
  | .udim _ => .mk (str "UDim") (leaves ["S", "O"])
  | .udim2 .. => .mk (str "UDim2") (leaves ["XS", "XO", "YS", "YO"])
  | .vector2 _ => .mk (str "Vector2") (leaves ["X", "Y"])
  | .vector2int16 .. => .mk (str "Vector2int16") (leaves ["X", "Y"])
  | .vector3 _ => .mk (str "Vector3") (leaves ["X", "Y", "Z"])
  | .vector3int16 .. => .mk (str "Vector3int16") (leaves ["X", "Y", "Z"])
  | .numberSequence _ => .mk (str "NumberSequence") []
  | .colorSequence _ => .mk (str "ColorSequence") []
  | .numberRange .. => .mk (str "NumberRange") []
  | .rect .. => .mk (str "Rect2D") [.mk (str "min") (leaves ["X", "Y"]), .mk (str "max") (leaves ["X", "Y"])]
  | .physicalProperties c .. => .mk (str "PhysicalProperties") (if c then leaves ["CustomPhysics", "Density", "Friction",
      "Elasticity", "FrictionWeight", "ElasticityWeight"] else leaves ["CustomPhysics"])
  | .color3uint8 .. => .mk (str "Color3uint8") []
  | .int64 _ => .mk (str "int64") []
  | .sharedString _ => .mk (str "SharedString") []
  | .optional t none => .mk (optionalName t) []
  | .optional t (some v) => .mk (optionalName t) (if v.type = .cframe then [.mk (str "CFrame") frameParts] else [])
  | .uniqueId .. => .mk (str "UniqueId") []
  | .font fam _ _ c => .mk (str "Font") ([.mk (str "Family") (contentParts fam), .mk (str "Weight") [], .mk (str "Style") []] ++
      if c = [] then [] else [.mk (str "CachedFaceId") (contentParts c)])

/-- The text of the element for a value that stands for something else: a reference is written as the reference of its
instance, or as `null`; a shared string as the Base64 of its hash. -/
def LinkText (hash : Bytes → Bytes) (h : Heap ρ) : Value ρ → Tag → Prop
  | .reference none, t => getContent t = str "null"
  | .reference (some q), t => ∃ a : Inst ρ, h.get? q = some a ∧ getContent t = normText a.reference
  | .sharedString s, t => b64Decode (getContent t) = some (hash s)
  | _, _ => True

/-- The element for the property `n` of the value `v`. -/
structure PropertyElement (hash : Bytes → Bytes) (h : Heap ρ) (n : Bytes) (v : Value ρ) (t : Tag) : Prop where
  name : t.head.attr = [(str "name", normNewlines n)]
  names : skeleton t = valueSkeleton v
  link : LinkText hash h v t

/-- The element that lists properties, ordered by name. -/
structure PropertiesElement (hash : Bytes → Bytes) (h : Heap ρ) (props : Map Bytes (Value ρ)) (t : Tag) : Prop where
  name : t.head.startName = str "Properties"
  attr : t.head.attr = []
  listed : ∃ ns : List Bytes, ns.Pairwise (fun a b => bytesLt a b = true) ∧ (∀ n, n ∈ ns ↔ (props.get? n).isSome) ∧
    List.Forall₂ (fun n t => ∃ v, props.get? n = some v ∧ PropertyElement hash h n v t) ns t.tags

/-- The elements for the instances `ps`: each has the class and, unless they are excluded, the reference as attributes, and
contains the properties, then the elements for the children in order. -/
inductive ItemElements (hash : Bytes → Bytes) (exclude : Bool) (h : Heap ρ) : List ρ → List Tag → Prop
  | nil : ItemElements hash exclude h [] []
  | cons {p : ρ} {ps : List ρ} {inst : Inst ρ} {t props : Tag} {kids ts : List Tag} : h.get? p = some inst →
      t.head.startName = str "Item" →
      t.head.attr = (str "class", normNewlines inst.className) ::
        (if exclude then [] else [(str "referent", normNewlines inst.reference)]) →
      t.tags = props :: kids → PropertiesElement hash h inst.properties props →
      ItemElements hash exclude h inst.children kids → ItemElements hash exclude h ps ts →
      ItemElements hash exclude h (p :: ps) (t :: ts)

/-- The element for an entry of the metadata. -/
structure MetaElement (e : Bytes × Bytes) (t : Tag) : Prop where
  name : t.head.startName = str "Meta"
  attr : t.head.attr = [(str "name", normNewlines e.1)]
  text : getContent t = normText e.2
  tags : t.tags = []

/-- An External element. -/
structure ExternalElement (text : Bytes) (t : Tag) : Prop where
  name : t.head.startName = str "External"
  attr : t.head.attr = []
  text : getContent t = text
  tags : t.tags = []

/-- The element for the shared string with the hash `k`. -/
structure SharedElement (hash : Bytes → Bytes) (l : Map ρ (Inst ρ)) (k : Bytes) (t : Tag) : Prop where
  name : t.head.startName = str "SharedString"
  attr : t.head.attr = [(str "md5", b64Encode k)]
  content : ∃ s, UsedShared l s ∧ hash s = k ∧ b64Decode (getContent t) = some s
  tags : t.tags = []

/-- The layout of the document for the trees `ps` listed by `l`; `h` are the instances after encoding. -/
structure XmlFile (hash : Bytes → Bytes) (noRefs noExternal noMeta : Bool) (entries : Map Bytes Bytes) (h : Heap ρ) (ps : List ρ)
    (l : Map ρ (Inst ρ)) (doc : Tag) (metas externals items shared : List Tag) : Prop where
  name : doc.head.startName = str "roblox"
  attr : doc.head.attr = [(str "xmlns:xmime", str "http://www.w3.org/2005/05/xmlmime"),
    (str "xmlns:xsi", str "http://www.w3.org/2001/XMLSchema-instance"),
    (str "xsi:noNamespaceSchemaLocation", str "http://www.roblox.com/roblox.xsd"), (str "version", str "4")]
  tags : doc.tags = metas ++ externals ++ items ++ shared
  /-- a Meta element for each entry of the metadata, ordered by key -/
  metadata : if noMeta then metas = [] else ∃ es : List (Bytes × Bytes), es.Perm entries ∧
    es.Pairwise (fun a b => bytesLt a.1 b.1 = true) ∧ List.Forall₂ MetaElement es metas
  /-- two External elements -/
  external : if noExternal then externals = [] else List.Forall₂ ExternalElement [str "null", str "nil"] externals
  /-- an Item element for each instance -/
  instances : ItemElements hash noRefs h ps items
  /-- a SharedStrings element if a shared string occurs, with the strings ordered by hash -/
  noShared : (∀ s, ¬ UsedShared l s) → shared = []
  sharedStrings : (∃ s, UsedShared l s) → ∃ (t : Tag) (ks : List Bytes), shared = [t] ∧ t.head.startName = str "SharedStrings" ∧
    t.head.attr = [] ∧ ks.Pairwise (fun a b => bytesLt a b = true) ∧ (∀ k, k ∈ ks ↔ ∃ s, UsedShared l s ∧ hash s = k) ∧
    List.Forall₂ (SharedElement hash l) ks t.tags
  /-- references that are different and not empty -/
  references : ∀ x ∈ l, ∃ a : Inst ρ, h.get? x.1 = some a ∧ a.reference ≠ [] ∧ a.reference ≠ str "null" ∧ a.reference ≠ str "nil" ∧
    ∀ y ∈ l, ∀ b : Inst ρ, h.get? y.1 = some b → b.reference = a.reference → y.1 = x.1

end Spec

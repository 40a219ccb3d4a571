import Mathlib.Data.List.Forall2
import Verif.Rbxlx.CodecDecode
/-!
# Specification vocabulary: what an XML document says

These definitions read the tags of a document, without reference to how they are decoded. The meaning of a single
property tag (`getProperty`) is the subject of C80 (Spec/XmlProperty).
-/
namespace Spec
open Go Rbxfile Rbxlx

/-- `Builds h K ts ps l`: the instances `ps` of the heap `h` mirror the Item tags with a class among `ts`, in order, and
so do their children; other tags are skipped. `l` lists the instances in the order of the document. `K p t inst` is
required of the properties of the instance `inst` (with the pointer `p`) for the tag `t`. -/
inductive Builds (h : Heap Nat) (K : Nat → Tag → Inst Nat → Prop) : List Tag → List Nat → Map Nat (Inst Nat) → Prop
  | nil : Builds h K [] [] []
  | skip {t : Tag} {ts ps l} : (t.head.startName = str "Item" → attrValue t.head.attr (str "class") = none) →
      Builds h K ts ps l → Builds h K (t :: ts) ps l
  | item {t : Tag} {ts ps below rest} {p : Nat} {inst : Inst Nat} : t.head.startName = str "Item" →
      attrValue t.head.attr (str "class") = some inst.className →
      inst.reference = (attrValue t.head.attr (str "referent")).getD [] → inst.isService = false →
      h.get? p = some inst → K p t inst → Builds h K t.tags inst.children below → Builds h K ts ps rest →
      Builds h K (t :: ts) (p :: ps) ((p, inst) :: (below ++ rest))

/-- The property tags of an Item: those in its first Properties tag. -/
def propertyTags (ts : List Tag) : List Tag :=
  match ts.find? (fun t => decide (t.head.startName = str "Properties")) with
  | some t => t.tags
  | none => []

/-- The value of a property that is neither a pending reference nor a shared string: the last one counts. -/
def lastValue (rs : List (PropRes Nat)) (name : Bytes) : Option (Value Nat) :=
  (rs.filterMap fun r => match r with
    | .value n v => if n = name then some v else none
    | _ => none).getLast?

/-- The references given to a property. -/
def refsTo (rs : List (PropRes Nat)) (name : Bytes) : List Bytes :=
  rs.filterMap fun r => match r with
    | .ref n x => if n = name then some x else none
    | _ => none

/-- The hashes of the shared strings given to a property. -/
def hashesOf (rs : List (PropRes Nat)) (name : Bytes) : List Bytes :=
  rs.filterMap fun r => match r with
    | .shared n x => if n = name then some x else none
    | _ => none

/-- The hash and the content that a SharedString tag announces. -/
def sharedEntry (s : Tag) : Option (Bytes × Bytes) :=
  if s.head.startName = str "SharedString" then
    match attrValue s.head.attr (str "md5") with
    | some hash =>
      match b64Decode hash, b64Decode (getContent s) with
      | some key, some value => some (key, value)
      | _, _ => none
    | none => none
  else none

/-- The shared strings (hash and content) announced by the SharedStrings tags of a document. -/
def sharedEntries (doc : List Tag) : List (Bytes × Bytes) :=
  doc.flatMap fun t => if t.head.startName = str "SharedStrings" then t.tags.filterMap sharedEntry else []

/-- The instance that a reference points to: the last one in the document with this referent, if the text is one that
can be a referent. -/
def targetOf (l : Map Nat (Inst Nat)) (ref : Bytes) : Option Nat :=
  if isEmptyReference ref = true then none
  else ((l.filter fun x => decide (x.2.reference = ref)).getLast?).map Prod.fst

/-- The value of a property: a reference counts before a shared string, and a shared string before other values; among
several of a kind the last one counts (for shared strings: the last announced). -/
def propertyOf (doc : List Tag) (l : Map Nat (Inst Nat)) (rs : List (PropRes Nat)) (name : Bytes) : Option (Value Nat) :=
  match (refsTo rs name).getLast? with
  | some ref => some (.reference (targetOf l ref))
  | none =>
    match ((sharedEntries doc).filter fun e => decide (e.1 ∈ hashesOf rs name)).getLast? with
    | some e => some (.sharedString e.2)
    | none => lastValue rs name

/-- The properties of an instance are those that the property tags of its Item say. -/
def PropsOf (F : FloatText) (discard : Bool) (doc : List Tag) (l : Map Nat (Inst Nat)) (t : Tag) (inst : Inst Nat) : Prop :=
  ∃ rs : List (PropRes Nat), List.Forall₂ (fun t r => getProperty F discard t = .ok r) (propertyTags t.tags) rs ∧
    ∀ name, inst.properties.get? name = propertyOf doc l rs name

/-- The metadata that the Meta tags of a document give: name and text. -/
def metaPairs (doc : List Tag) : List (Bytes × Bytes) :=
  doc.filterMap fun t =>
    if t.head.startName = str "Meta" then (attrValue t.head.attr (str "name")).map fun k => (k, t.head.text) else none

end Spec

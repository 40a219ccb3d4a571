import Verif.Go.Base64
import Verif.Go.FloatText
import Verif.Go.Sort
import Verif.Rbxfile.Values
import Verif.Spec.Binary
import Verif.Spec.Tree
import Verif.Spec.Xml
import Mathlib.Data.List.Infix
import Mathlib.Data.List.Forall2
/-!
# Specification vocabulary: the text of an XML file

These definitions say which characters the file of a tree consists of, without reference to how they are made. Go's library
gives the digits of numbers with a fraction (`FloatText`, strconv.FormatFloat) and base64 (`b64Encode`).
-/
namespace Spec.XmlText
open Go Rbxfile Spec

/-! ## Characters -/

/-- A natural number in decimal digits. -/
def numeral (n : Nat) : Bytes :=
  if n < 10 then [BitVec.ofNat 8 (48 + n)] else numeral (n / 10) ++ [BitVec.ofNat 8 (48 + n % 10)]

/-- An integer in decimal digits. -/
def integer (n : Int) : Bytes := if n < 0 then str "-" ++ numeral n.natAbs else numeral n.natAbs

/-- A character by its number. -/
def coded (b : Byte) : Bytes := str "&#" ++ numeral b.toNat ++ str ";"

/-- A character: the special ones have names, those that cannot be printed have numbers. -/
def character (b : Byte) : Bytes :=
  if [b] = str "\"" then str "&quot;"
  else if [b] = str "'" then str "&apos;"
  else if [b] = str "&" then str "&amp;"
  else if [b] = str "<" then str "&lt;"
  else if [b] = str ">" then str "&gt;"
  else if 32 ≤ b.toNat ∧ b.toNat ≤ 126 ∨ b.toNat = 10 ∨ b.toNat = 13 then [b]
  else coded b

/-- The value of an attribute. -/
def quoted (s : Bytes) : Bytes := s.flatMap character

/-- The text of an element: whitespace at the beginning is written by number. -/
def escaped (s : Bytes) : Bytes :=
  (s.takeWhile fun b => decide (XmlSpace b)).flatMap coded ++ (s.dropWhile fun b => decide (XmlSpace b)).flatMap character

/-! ## Elements -/

/-- The elements that occur. -/
inductive Element where
  /-- an element with a text -/
  | text (name : Bytes) (attrs : List (Bytes × Bytes)) (s : Bytes)
  /-- an element with a text that is not escaped -/
  | cdata (name : Bytes) (attrs : List (Bytes × Bytes)) (s : Bytes)
  /-- an element with another one within, which has a text, in the same line -/
  | inner (name : Bytes) (attrs : List (Bytes × Bytes)) (kid s : Bytes)
  /-- an element with others within, which are in separate lines -/
  | block (name : Bytes) (attrs : List (Bytes × Bytes)) (kids : List Element)

/-- A start tag. -/
def start (name : Bytes) (attrs : List (Bytes × Bytes)) : Bytes :=
  str "<" ++ name ++ (attrs.flatMap fun a => str " " ++ a.1 ++ str "=\"" ++ quoted a.2 ++ str "\"") ++ str ">"

/-- An end tag. -/
def stop (name : Bytes) : Bytes := str "</" ++ name ++ str ">"

mutual
/-- The text of an element; `line d` begins a line at the depth `d`. -/
def element (line : Nat → Bytes) (d : Nat) : Element → Bytes
  | .text n as s => start n as ++ escaped s ++ stop n
  | .cdata n as s => start n as ++ str "<![CDATA[" ++ s ++ str "]]>" ++ stop n
  | .inner n as k s => start n as ++ start k [] ++ escaped s ++ stop k ++ stop n
  | .block n as es => start n as ++ lines line (d + 1) es ++ (if es.isEmpty then [] else line d) ++ stop n
/-- The text of elements, each in a line. -/
def lines (line : Nat → Bytes) (d : Nat) : List Element → Bytes
  | [] => []
  | e :: es => line d ++ element line d e ++ lines line d es
end

/-- The beginning of a line: a prefix and the indentation. There are no lines if both are empty. -/
def beginLine (pre indent : Bytes) (d : Nat) : Bytes :=
  if pre = [] ∧ indent = [] then [] else str "\n" ++ pre ++ (List.replicate d indent).flatten

/-- The whole text, with or without the root element. -/
def document (pre indent suffix : Bytes) (excludeRoot : Bool) (name : Bytes) (attrs : List (Bytes × Bytes)) (es : List Element) :
    Bytes :=
  pre ++ (if excludeRoot then (beginLine pre indent 0).intercalate (es.map (element (beginLine pre indent) 0))
    else element (beginLine pre indent) 0 (.block name attrs es)) ++ suffix

/-! ## Values -/

/-- A number with a fraction: `p` significant digits, and at least three digits of the exponent, if there is one. -/
def real (F : FloatText) (p : Nat) (f : F32) : Bytes :=
  let s := F.format32 p f
  let mantissa := s.takeWhile fun c => decide (c ≠ 101#8)
  match s.dropWhile fun c => decide (c ≠ 101#8) with
  | [] => mantissa
  | e :: exponent => mantissa ++ [e] ++ exponent.take 1 ++ List.replicate (3 - (exponent.length - 1)) 48#8 ++ exponent.drop 1

/-- A number that consists of flags, the first being the lowest bit. -/
def flags (l : List Bool) : Bytes := numeral ((l.zipIdx.map fun b => if b.1 then 2 ^ b.2 else 0).sum)

/-- Base64 in lines of 72 characters, with line feeds between them. -/
def broken (s : Bytes) : Bytes := if s.length ≤ 72 then s else s.take 72 ++ str "\n" ++ broken (s.drop 72)
termination_by s.length
decreasing_by simp only [List.length_drop]; omega

/-- Base64 in lines of 72 characters, with a line feed after each full line. -/
def wrapped (s : Bytes) : Bytes := if s.length < 72 then s else s.take 72 ++ str "\n" ++ wrapped (s.drop 72)
termination_by s.length
decreasing_by simp only [List.length_drop]; omega

/-- A number in `k` hexadecimal digits. -/
def hexadecimal : Nat → Nat → Bytes
  | 0, _ => []
  | k + 1, n => hexadecimal k (n / 16) ++ [BitVec.ofNat 8 (if n % 16 < 10 then 48 + n % 16 else 87 + n % 16)]

/-- Elements with texts. -/
def parts (l : List (String × Bytes)) : List Element := l.map fun x => .text (str x.1) [] x.2

/-- The components of a Vector3. -/
def xyz (F : FloatText) (v : Vector3) : List (String × Bytes) :=
  [("X", real F 9 v.x), ("Y", real F 9 v.y), ("Z", real F 9 v.z)]

/-- The components of a Vector2. -/
def xy (F : FloatText) (v : Vector2) : List (String × Bytes) := [("X", real F 9 v.x), ("Y", real F 9 v.y)]

/-- The components of a CFrame. -/
def frame (F : FloatText) (p : Vector3) (r : Matrix) : List Element :=
  parts (xyz F p ++ [("R00", real F 9 r.m0), ("R01", real F 9 r.m1), ("R02", real F 9 r.m2), ("R10", real F 9 r.m3),
    ("R11", real F 9 r.m4), ("R12", real F 9 r.m5), ("R20", real F 9 r.m6), ("R21", real F 9 r.m7), ("R22", real F 9 r.m8)])

/-- A Content: no text is a `null` element. -/
def content (name : Bytes) (attrs : List (Bytes × Bytes)) (s : Bytes) : Element :=
  .inner name attrs (if s = [] then str "null" else str "url") s

/-- The name of the element for an Optional of a type. -/
def optional : Ty → String
  | .axes => "OptionalAxes" | .binaryString => "OptionalBinaryString" | .bool => "Optionalbool"
  | .brickColor => "OptionalBrickColor" | .cframe => "OptionalCoordinateFrame" | .color3 => "OptionalColor3"
  | .content => "OptionalContent" | .double => "Optionaldouble" | .faces => "OptionalFaces" | .float => "Optionalfloat"
  | .int => "Optionalint" | .protectedString => "OptionalProtectedString" | .ray => "OptionalRay"
  | .reference => "OptionalObject" | .string => "Optionalstring" | .token => "Optionaltoken" | .udim => "OptionalUDim"
  | .udim2 => "OptionalUDim2" | .vector2 => "OptionalVector2" | .vector2int16 => "OptionalVector2int16"
  | .vector3 => "OptionalVector3" | .vector3int16 => "OptionalVector3int16"
  | .numberSequence => "OptionalNumberSequence" | .colorSequence => "OptionalColorSequence"
  | .numberRange => "OptionalNumberRange" | .rect => "OptionalRect2D"
  | .physicalProperties => "OptionalPhysicalProperties" | .color3uint8 => "OptionalColor3uint8"
  | .int64 => "Optionalint64" | .sharedString => "OptionalSharedString" | .uniqueId => "OptionalUniqueId"
  | .font => "OptionalFont" | .invalid => "Optional" | .optional => "Optional"

/-- The name of the style of a font. -/
def style (st : Byte) : Bytes := if st.toNat = 0 then str "Normal" else if st.toNat = 1 then str "Italic" else str "<invalid>"

variable {ρ : Type}

/-- The element for a value. `ref` gives the references of instances, `hash` the hashes of shared strings. Three things are not as
one might expect: a BrickColor is written as an `int`; the direction of a Ray is its origin; of an Optional, only a CFrame is written. -/
def value (F : FloatText) (hash : Bytes → Bytes) (ref : ρ → Bytes) (as : List (Bytes × Bytes)) : Value ρ → Element
  | .string s => .text (str "string") as s
  | .binaryString s => .text (str "BinaryString") as (broken (b64Encode s))
  | .protectedString s => if str "]]>" <:+: s then .cdata (str "ProtectedString") as s else .text (str "ProtectedString") as s
  | .content s => content (str "Content") as s
  | .bool b => .text (str "bool") as (if b then str "true" else str "false")
  | .int n => .text (str "int") as (integer n.toInt)
  | .float f => .text (str "float") as (real F 9 f)
  | .double f => .text (str "double") as (F.format64 9 f)
  | .udim u => .block (str "UDim") as (parts [("S", real F 9 u.scale), ("O", integer u.offset.toInt)])
  | .udim2 x y => .block (str "UDim2") as (parts [("XS", real F 9 x.scale), ("XO", integer x.offset.toInt),
      ("YS", real F 9 y.scale), ("YO", integer y.offset.toInt)])
  | .ray o _ => .block (str "Ray") as [.block (str "origin") [] (parts (xyz F o)), .block (str "direction") [] (parts (xyz F o))]
  | .faces r t b l bo f => .block (str "Faces") as (parts [("faces", flags [r, t, b, l, bo, f])])
  | .axes x y z => .block (str "Axes") as (parts [("axes", flags [x, y, z])])
  | .brickColor n => .text (str "int") as (numeral n.toNat)
  | .color3 c => .block (str "Color3") as (parts [("R", real F 9 c.r), ("G", real F 9 c.g), ("B", real F 9 c.b)])
  | .vector2 v => .block (str "Vector2") as (parts (xy F v))
  | .vector3 v => .block (str "Vector3") as (parts (xyz F v))
  | .cframe p r => .block (str "CoordinateFrame") as (frame F p r)
  | .token n => .text (str "token") as (numeral n.toNat)
  | .reference none => .text (str "Ref") as (str "null")
  | .reference (some p) => .text (str "Ref") as (ref p)
  | .vector3int16 x y z =>
    .block (str "Vector3int16") as (parts [("X", integer x.toInt), ("Y", integer y.toInt), ("Z", integer z.toInt)])
  | .vector2int16 x y => .block (str "Vector2int16") as (parts [("X", integer x.toInt), ("Y", integer y.toInt)])
  | .numberSequence ks => .text (str "NumberSequence") as
      (ks.flatMap fun k => [k.time, k.value, k.envelope].flatMap fun f => real F 6 f ++ str " ")
  | .colorSequence ks => .text (str "ColorSequence") as
      (ks.flatMap fun k => [k.time, k.value.r, k.value.g, k.value.b, k.envelope].flatMap fun f => real F 6 f ++ str " ")
  | .numberRange a b => .text (str "NumberRange") as ([a, b].flatMap fun f => real F 6 f ++ str " ")
  | .rect a b => .block (str "Rect2D") as [.block (str "min") [] (parts (xy F a)), .block (str "max") [] (parts (xy F b))]
  | .physicalProperties c d f e fw ew => .block (str "PhysicalProperties") as (parts (if c then [("CustomPhysics", str "true"),
      ("Density", real F 9 d), ("Friction", real F 9 f), ("Elasticity", real F 9 e), ("FrictionWeight", real F 9 fw),
      ("ElasticityWeight", real F 9 ew)] else [("CustomPhysics", str "false")]))
  | .color3uint8 r g b => .text (str "Color3uint8") as (numeral (0xFF000000 + r.toNat * 0x10000 + g.toNat * 0x100 + b.toNat))
  | .int64 n => .text (str "int64") as (integer n.toInt)
  | .sharedString s => .text (str "SharedString") as (broken (b64Encode (hash s)))
  | .optional t (some (.cframe p r)) => .block (str (optional t)) as [.block (str "CFrame") [] (frame F p r)]
  | .optional t _ => .text (str (optional t)) as []
  | .uniqueId r t i => .text (str "UniqueId") as (hexadecimal 32 (r.toNat * 2 ^ 64 + t.toNat * 2 ^ 32 + i.toNat))
  | .font fam w st c => .block (str "Font") as ([content (str "Family") [] fam, .text (str "Weight") [] (numeral w.toNat),
      .text (str "Style") [] (style st)] ++ if c = [] then [] else [content (str "CachedFaceId") [] c])

/-! ## Files -/

variable [DecidableEq ρ]

/-- The reference of an instance. -/
def reference (h : Heap ρ) (p : ρ) : Bytes := ((h.get? p).map Inst.reference).getD []

/-- The elements for properties, ordered by name. -/
def Properties (F : FloatText) (hash : Bytes → Bytes) (h : Heap ρ) (props : Map Bytes (Value ρ)) (es : List Element) : Prop :=
  ∃ ns : List Bytes, ns.Pairwise (fun a b => bytesLt a b = true) ∧ (∀ n, n ∈ ns ↔ (props.get? n).isSome) ∧
    List.Forall₂ (fun n e => ∃ v, props.get? n = some v ∧ e = value F hash (reference h) [(str "name", n)] v) ns es

/-- The elements for the instances `ps`: each has the class and, unless they are excluded, the reference as attributes, and
contains the properties, then the elements for the children in order. -/
inductive Items (F : FloatText) (hash : Bytes → Bytes) (exclude : Bool) (h : Heap ρ) : List ρ → List Element → Prop
  | nil : Items F hash exclude h [] []
  | cons {p : ρ} {ps : List ρ} {inst : Inst ρ} {props kids es : List Element} : h.get? p = some inst →
      Properties F hash h inst.properties props → Items F hash exclude h inst.children kids → Items F hash exclude h ps es →
      Items F hash exclude h (p :: ps) (.block (str "Item") ((str "class", inst.className) ::
        if exclude then [] else [(str "referent", inst.reference)]) (.block (str "Properties") [] props :: kids) :: es)

/-- The elements for the metadata, ordered by key. -/
def Metadata (entries : Map Bytes Bytes) (es : List Element) : Prop :=
  ∃ xs : List (Bytes × Bytes), xs.Perm entries ∧ xs.Pairwise (fun a b => bytesLt a.1 b.1 = true) ∧
    es = xs.map fun x => .text (str "Meta") [(str "name", x.1)] x.2

/-- The elements for the shared strings that occur in the instances `l`, ordered by hash. -/
def Shared (hash : Bytes → Bytes) (l : Map ρ (Inst ρ)) (es : List Element) : Prop :=
  ∃ xs : List (Bytes × Bytes), xs.Pairwise (fun a b => bytesLt a.1 b.1 = true) ∧
    (∀ x ∈ xs, UsedShared l x.2 ∧ x.1 = hash x.2) ∧ (∀ s, UsedShared l s → ∃ x ∈ xs, x.1 = hash s) ∧
    es = if xs.isEmpty then [] else [.block (str "SharedStrings") [] (xs.map fun x =>
      .text (str "SharedString") [(str "md5", b64Encode x.1)] (wrapped (b64Encode x.2)))]

/-- The attributes of the root element. -/
def rootAttrs : List (Bytes × Bytes) :=
  [(str "xmlns:xmime", str "http://www.w3.org/2005/05/xmlmime"), (str "xmlns:xsi", str "http://www.w3.org/2001/XMLSchema-instance"),
   (str "xsi:noNamespaceSchemaLocation", str "http://www.roblox.com/roblox.xsd"), (str "version", str "4")]

end Spec.XmlText

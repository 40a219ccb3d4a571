import Verif.Go.FloatText
import Verif.Go.Base64
import Verif.Rbxlx.Document
import Verif.Rbxfile.Values
/-!
# Specification vocabulary: what the tag of a property says

These definitions read a tag, without reference to how it is decoded. Numbers with a fraction are read by `F`
(strconv.ParseFloat), base64 by `b64Decode` (encoding/base64).
-/
namespace Spec
open Go Rbxfile Rbxlx

/-! ## Parts of a tag -/

/-- The content of a tag: its CDATA section, even if this is empty; otherwise its text. -/
def tagContent (t : Tag) : Bytes := t.head.cdata.getD t.head.text

/-- The first of some tags that has a name. -/
def firstTag (ts : List Tag) (name : String) : Option Tag := ts.find? fun s => decide (s.head.startName = str name)

/-- A character of whitespace. -/
def White (b : Byte) : Prop := b ∈ str " \t\r\n" ∨ b = 12#8

instance (b : Byte) : Decidable (White b) := by unfold White; infer_instance

/-! ## Numbers -/

/-- The number that decimal digits denote. -/
def decimal (ds : Bytes) : Nat := ds.foldl (fun n c => 10 * n + (c.toNat - 48)) 0

/-- At least one decimal digit, and nothing else. -/
def Digits (ds : Bytes) : Prop := ds ≠ [] ∧ ∀ c ∈ ds, 48 ≤ c.toNat ∧ c.toNat ≤ 57

/-- The text `s` is a numeral for `n`. If `n` has more than `bits` bits, anything may follow the numeral. -/
def NatText (bits : Nat) (s : Bytes) (n : Nat) : Prop :=
  ∃ ds rest, s = ds ++ rest ∧ Digits ds ∧ n = decimal ds ∧ (rest = [] ∨ 2 ^ bits ≤ n)

/-- The text `s` is a numeral for `k`, possibly with a sign. If `k` has more than `bits` bits, anything may follow. -/
def IntText (bits : Nat) (s : Bytes) (k : Int) : Prop :=
  (∃ n : Nat, NatText bits s n ∧ k = n) ∨
  (∃ u, ∃ n : Nat, s = 43#8 :: u ∧ NatText bits u n ∧ k = n) ∨
  (∃ u, ∃ n : Nat, s = 45#8 :: u ∧ NatText bits u n ∧ k = -(n : Int))

/-- The nearest number that can be represented with `bits` bits, one of them for the sign. -/
def clampInt (bits : Nat) (k : Int) : Int := max (-(2 ^ (bits - 1))) (min (2 ^ (bits - 1) - 1) k)

/-- The text is a numeral, but the number cannot be represented with `bits` bits, one of them for the sign. -/
def Overflows (bits : Nat) (s : Bytes) : Prop := ∃ k, IntText bits s k ∧ clampInt bits k ≠ k

/-- The text `s` says the integer `n`: the nearest that can be represented. -/
def SaysInt (bits w : Nat) (s : Bytes) (n : BitVec w) : Prop := ∃ k, IntText bits s k ∧ n = BitVec.ofInt w (clampInt bits k)

/-- The same for numbers without a sign. -/
def SaysNat (bits : Nat) (s : Bytes) (n : Nat) : Prop := ∃ k, NatText bits s k ∧ n = min (2 ^ bits - 1) k

/-- The text `s` starts with these numbers, each followed by whitespace; `rest` is what follows. -/
inductive Numbers (F : FloatText) : List F32 → Bytes → Bytes → Prop
  | nil {s} : Numbers F [] s s
  | cons {f fs w sp rest s} : (∀ c ∈ w, ¬ White c) → sp ≠ [] → (∀ c ∈ sp, White c) →
      (∀ c u, rest = c :: u → ¬ White c) → F.parse32 w = some f → Numbers F fs rest s →
      Numbers F (f :: fs) (w ++ sp ++ rest) s

/-- The value of a hexadecimal digit. -/
def hexDigitOf (c : Byte) : Option Nat := (str "0123456789abcdef").idxOf? c <|> (str "0123456789ABCDEF").idxOf? c

/-- The number that hexadecimal digits denote. -/
def hexNumber (s : Bytes) : Option Nat :=
  s.foldl (fun n c => do return 16 * (← n) + (← hexDigitOf c)) (some 0)

/-! ## Components

The components of a value are the first subtags of their names. A component that is a number with a fraction is 0 if it
cannot be read. When an integer component cannot be represented, it is clamped, and the tags after it are not read at
all: the components that are only there count as 0. -/

/-- `Seen bits names ts seen cut`: among the tags `ts`, where the integer components are called `names`, the tags `seen`
are read, because (if `cut`) the last of these has an integer that cannot be represented. -/
def Seen (bits : Nat) (names : List String) (ts seen : List Tag) (cut : Bool) : Prop :=
  (∀ n ∈ names, ∀ s, firstTag (if cut then seen.dropLast else seen) n = some s → ¬ Overflows bits (tagContent s)) ∧
  match cut with
  | false => seen = ts
  | true => ∃ before last after, ts = before ++ last :: after ∧ seen = before ++ [last] ∧
      ∃ n ∈ names, last.head.startName = str n ∧ firstTag before n = none ∧ Overflows bits (tagContent last)

/-- The component `name` among `ts` is the number `x`. -/
def FloatAt (F : FloatText) (ts : List Tag) (cut : Bool) (name : String) (x : F32) : Prop :=
  match firstTag ts name with
  | some s => x = (F.parse32 (tagContent s)).getD 0
  | none => cut = true ∧ x = 0

/-- The component `name` among `ts` is the integer `x`, read as a number of `bits` bits. -/
def IntAt (bits : Nat) {w : Nat} (ts : List Tag) (cut : Bool) (name : String) (x : BitVec w) : Prop :=
  match firstTag ts name with
  | some s => SaysInt bits w (tagContent s) x
  | none => cut = true ∧ x = 0

/-- The tag has the components of a Vector3. -/
def XyzAt (F : FloatText) (t : Tag) (v : Vector3) : Prop :=
  FloatAt F t.tags false "X" v.x ∧ FloatAt F t.tags false "Y" v.y ∧ FloatAt F t.tags false "Z" v.z

/-- The tag has the components of a Vector2. -/
def XyAt (F : FloatText) (t : Tag) (v : Vector2) : Prop :=
  FloatAt F t.tags false "X" v.x ∧ FloatAt F t.tags false "Y" v.y

/-! ## Values -/

/-- The text says the truth value. -/
def SaysBool (s : Bytes) : Bool → Prop
  | true => s ∈ ["true", "True", "TRUE"].map str
  | false => s ∈ ["false", "False", "FALSE"].map str

/-- The tag says the content: it has none itself, and its first subtag is a url; or this is one of the others, which
mean nothing. -/
def SaysContent (t : Tag) (c : Bytes) : Prop :=
  tagContent t = [] ∧ ∃ s ss, t.tags = s :: ss ∧
    (s.head.startName = str "url" ∧ c = tagContent s ∨ s.head.startName ∈ ["binary", "hash", "null"].map str ∧ c = [])

/-- The text says the style of a font. -/
def SaysStyle (s : Bytes) (st : Byte) : Prop := s = str "Normal" ∧ st = 0 ∨ s = str "Italic" ∧ st = 1

/-- The component with the style of a font. -/
def StyleAt (ts : List Tag) (cut : Bool) (st : Byte) : Prop :=
  match firstTag ts "Style" with
  | some s => SaysStyle (tagContent s) st
  | none => cut = true ∧ st = 0

/-- The component with the cached id of a font, which may be missing. -/
def CachedAt (t : Tag) (cached : Bytes) : Prop :=
  match firstTag t.tags "CachedFaceId" with
  | some s => SaysContent s cached
  | none => cached = []

/-- The tag says the value. The types SharedString, Reference and Optional are the subject of `SaysProperty`. -/
def SaysValue {ρ : Type} (F : FloatText) (t : Tag) : Value ρ → Prop
  | .string s => s = tagContent t
  | .protectedString s => s = tagContent t
  | .binaryString s => b64Decode (tagContent t) = some s
  | .content s => SaysContent t s
  | .bool b => SaysBool (tagContent t) b
  | .int n => SaysInt 32 32 (tagContent t) n
  | .token n => SaysInt 32 32 (tagContent t) n
  | .int64 n => SaysInt 64 64 (tagContent t) n
  | .brickColor n => SaysNat 32 (tagContent t) n.toNat
  | .float f => F.parse32 (tagContent t) = some f
  | .double f => F.parse64 (tagContent t) = some f
  | .udim u => ∃ seen cut, Seen 32 ["O"] t.tags seen cut ∧ FloatAt F seen cut "S" u.scale ∧ IntAt 32 seen cut "O" u.offset
  | .udim2 x y => ∃ seen cut, Seen 32 ["XO", "YO"] t.tags seen cut ∧ FloatAt F seen cut "XS" x.scale ∧
      IntAt 32 seen cut "XO" x.offset ∧ FloatAt F seen cut "YS" y.scale ∧ IntAt 32 seen cut "YO" y.offset
  | .ray o d => ∃ a b, firstTag t.tags "origin" = some a ∧ firstTag t.tags "direction" = some b ∧ XyzAt F a o ∧ XyzAt F b d
  | .faces r tp bk l bt f => ∃ n : BitVec 32, IntAt 32 t.tags false "faces" n ∧ r = n.getLsbD 0 ∧ tp = n.getLsbD 1 ∧
      bk = n.getLsbD 2 ∧ l = n.getLsbD 3 ∧ bt = n.getLsbD 4 ∧ f = n.getLsbD 5
  | .axes x y z => ∃ n : BitVec 32, IntAt 32 t.tags false "axes" n ∧ x = n.getLsbD 0 ∧ y = n.getLsbD 1 ∧ z = n.getLsbD 2
  | .color3 c =>
    if tagContent t = [] then
      FloatAt F t.tags false "R" c.r ∧ FloatAt F t.tags false "G" c.g ∧ FloatAt F t.tags false "B" c.b
    else ∃ n, SaysNat 32 (tagContent t) n ∧ c.r = F.frac255 (BitVec.ofNat 8 (n / 65536)) ∧
      c.g = F.frac255 (BitVec.ofNat 8 (n / 256)) ∧ c.b = F.frac255 (BitVec.ofNat 8 n)
  | .vector2 v => XyAt F t v
  | .vector3 v => XyzAt F t v
  | .cframe p r => XyzAt F t p ∧ FloatAt F t.tags false "R00" r.m0 ∧ FloatAt F t.tags false "R01" r.m1 ∧
      FloatAt F t.tags false "R02" r.m2 ∧ FloatAt F t.tags false "R10" r.m3 ∧ FloatAt F t.tags false "R11" r.m4 ∧
      FloatAt F t.tags false "R12" r.m5 ∧ FloatAt F t.tags false "R20" r.m6 ∧ FloatAt F t.tags false "R21" r.m7 ∧
      FloatAt F t.tags false "R22" r.m8
  | .vector2int16 x y => ∃ seen cut, Seen 16 ["X", "Y"] t.tags seen cut ∧ IntAt 16 seen cut "X" x ∧ IntAt 16 seen cut "Y" y
  | .vector3int16 x y z => ∃ seen cut, Seen 16 ["X", "Y", "Z"] t.tags seen cut ∧ IntAt 16 seen cut "X" x ∧
      IntAt 16 seen cut "Y" y ∧ IntAt 16 seen cut "Z" z
  | .numberSequence ks => Numbers F (ks.flatMap fun k => [k.time, k.value, k.envelope]) (tagContent t) []
  | .colorSequence ks =>
      Numbers F (ks.flatMap fun k => [k.time, k.value.r, k.value.g, k.value.b, k.envelope]) (tagContent t) []
  | .numberRange a b => ∃ rest, Numbers F [a, b] (tagContent t) rest
  | .rect a b => ∃ s u, firstTag t.tags "min" = some s ∧ firstTag t.tags "max" = some u ∧ XyAt F s a ∧ XyAt F u b
  | .physicalProperties c d f e fw ew => ∃ s, firstTag t.tags "CustomPhysics" = some s ∧ SaysBool (tagContent s) c ∧
      if c then FloatAt F t.tags false "Density" d ∧ FloatAt F t.tags false "Friction" f ∧
        FloatAt F t.tags false "Elasticity" e ∧ FloatAt F t.tags false "FrictionWeight" fw ∧
        FloatAt F t.tags false "ElasticityWeight" ew
      else d = 0 ∧ f = 0 ∧ e = 0 ∧ fw = 0 ∧ ew = 0
  | .color3uint8 r g b =>
    if tagContent t = [] then ∃ seen cut, Seen 32 ["R", "G", "B"] t.tags seen cut ∧ IntAt 32 seen cut "R" r ∧
      IntAt 32 seen cut "G" g ∧ IntAt 32 seen cut "B" b
    else ∃ n, SaysNat 32 (tagContent t) n ∧ r = BitVec.ofNat 8 (n / 65536) ∧ g = BitVec.ofNat 8 (n / 256) ∧ b = BitVec.ofNat 8 n
  | .uniqueId r ti i => ∃ n : Nat, 32 ≤ t.head.text.length ∧ hexNumber (t.head.text.take 32) = some n ∧
      r = BitVec.ofNat 64 (n / 2 ^ 64) ∧ ti = BitVec.ofNat 32 (n / 2 ^ 32) ∧ i = BitVec.ofNat 32 n
  | .font fam w st cached => ∃ seen cut, Seen 16 ["Weight"] t.tags seen cut ∧
      (∃ s, firstTag seen "Family" = some s ∧ SaysContent s fam) ∧ IntAt 16 seen cut "Weight" w ∧
      StyleAt seen cut st ∧ CachedAt t cached
  | .sharedString _ => False
  | .reference _ => False
  | .optional _ _ => False

/-! ## Properties -/

/-- The names that the tag of a property of a type may have, in lower case. -/
def tagNames : Ty → List String
  | .axes => ["axes"]
  | .binaryString => ["binarystring"]
  | .bool => ["bool"]
  | .brickColor => ["brickcolor"]
  | .cframe => ["cframe", "coordinateframe"]
  | .color3 => ["color3"]
  | .content => ["content"]
  | .double => ["double"]
  | .faces => ["faces"]
  | .float => ["float"]
  | .int => ["int"]
  | .protectedString => ["protectedstring"]
  | .ray => ["ray"]
  | .reference => ["object", "ref"]
  | .string => ["string"]
  | .token => ["token"]
  | .udim => ["udim"]
  | .udim2 => ["udim2"]
  | .vector2 => ["vector2"]
  | .vector2int16 => ["vector2int16"]
  | .vector3 => ["vector3"]
  | .vector3int16 => ["vector3int16"]
  | .numberSequence => ["numbersequence"]
  | .colorSequence => ["colorsequence"]
  | .numberRange => ["numberrange"]
  | .rect => ["rect", "rect2d"]
  | .physicalProperties => ["physicalproperties"]
  | .color3uint8 => ["color3uint8"]
  | .int64 => ["int64"]
  | .sharedString => ["sharedstring"]
  | .uniqueId => ["uniqueid"]
  | .font => ["font"]
  | .invalid => []
  | .optional => []

/-- A letter in lower case; other characters are unchanged. -/
def lowerLetter (c : Byte) : Byte := if 65 ≤ c.toNat ∧ c.toNat ≤ 90 then c + 32 else c

/-- The tag stands for a property of the type. -/
def TypeTag (name : Bytes) (ty : Ty) : Prop := ∃ n ∈ tagNames ty, name.map lowerLetter = str n

/-- The tag stands for a property of an Optional type. -/
def OptionalTag (name : Bytes) (ty : Ty) : Prop := ∃ n ∈ tagNames ty, name.map lowerLetter = str "optional" ++ str n

/-- A text that refers to no instance. -/
def NoReference (s : Bytes) : Prop := s = [] ∨ s = str "null" ∨ s = str "nil"

end Spec

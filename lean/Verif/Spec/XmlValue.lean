import Verif.Go.Decimal
import Verif.Spec.Tree
import Verif.Spec.Binary
import Verif.Spec.Xml
/-!
# Specification vocabulary: what the XML format keeps of a value
-/
namespace Spec
open Go Rbxfile

variable {ρ : Type}

/-- Not a number. -/
def IsNaN (f : F32) : Prop := 0x7f800000 < f.toNat % 2 ^ 31

instance (f : F32) : Decidable (IsNaN f) := by unfold IsNaN; infer_instance

/-- The same number: the same bits, or both are not numbers. -/
def SameFloat (f g : F32) : Prop := f = g ∨ IsNaN f ∧ IsNaN g

/-- `g` is read from `f` written with six digits. -/
def SixDigits (f g : F32) : Prop := goFloat.parse32 (goFloat.format32 6 f) = some g

/-- `g` is read from `f` written with nine digits. -/
def NineDigits (f g : F64) : Prop := goFloat.parse64 (goFloat.format64 9 f) = some g

/-- The same in every component. -/
def SameVector3 (v w : Vector3) : Prop := SameFloat v.x w.x ∧ SameFloat v.y w.y ∧ SameFloat v.z w.z
/-- The same in every component. -/
def SameVector2 (v w : Vector2) : Prop := SameFloat v.x w.x ∧ SameFloat v.y w.y
/-- The same in every component. -/
def SameUDim (v w : UDim) : Prop := SameFloat v.scale w.scale ∧ v.offset = w.offset
/-- The same in every component. -/
def SameRotation (a b : Matrix) : Prop :=
  SameFloat a.m0 b.m0 ∧ SameFloat a.m1 b.m1 ∧ SameFloat a.m2 b.m2 ∧ SameFloat a.m3 b.m3 ∧ SameFloat a.m4 b.m4 ∧
  SameFloat a.m5 b.m5 ∧ SameFloat a.m6 b.m6 ∧ SameFloat a.m7 b.m7 ∧ SameFloat a.m8 b.m8
/-- Every number is read from six digits. -/
def SixNumber (a b : NumberKeypoint) : Prop :=
  SixDigits a.time b.time ∧ SixDigits a.value b.value ∧ SixDigits a.envelope b.envelope
/-- Every number is read from six digits. -/
def SixColor (a b : ColorKeypoint) : Prop :=
  SixDigits a.time b.time ∧ SixDigits a.value.r b.value.r ∧ SixDigits a.value.g b.value.g ∧
  SixDigits a.value.b b.value.b ∧ SixDigits a.envelope b.envelope

/-- Two lists of the same length with related elements. -/
inductive Each {α β : Type} (R : α → β → Prop) : List α → List β → Prop
  | nil : Each R [] []
  | cons {a b as bs} : R a b → Each R as bs → Each R (a :: as) (b :: bs)

/-- The values of which the XML format keeps everything: a token is below `2 ^ 31`, the weight of a font below
`2 ^ 15` and its style known, an Optional value is a CFrame or absent. A BrickColor is not kept, a Ray only if its
direction is its origin. -/
def XmlSupported : Value ρ → Prop
  | .brickColor _ => False
  | .ray o d => o = d
  | .token n => n.toNat < 2 ^ 31
  | .font _ w st _ => w.toNat < 2 ^ 15 ∧ st.toNat ≤ 1
  | .optional t none => t ≠ .optional
  | .optional t (some v) => t = .cframe ∧ v.type = .cframe
  | _ => True

/-- `XmlKept φ v w`: `w` is what remains of the value `v` in the decoded tree. In text, line ends are normalised. A
reference follows the correspondence `φ` of instances. The properties of PhysicalProperties are lost if they are not
custom. Numbers in sequences and ranges are read from six digits, those of type Double from nine. Everything else is
unchanged. -/
def XmlKept {σ : Type} (φ : ρ → Option σ) : Value ρ → Value σ → Prop
  | .string s, w => w = .string (normText s)
  | .binaryString s, w => w = .binaryString s
  | .protectedString s, w => w = .protectedString (normText s)
  | .content s, w => w = .content (normText s)
  | .bool b, w => w = .bool b
  | .int n, w => w = .int n
  | .float f, w => ∃ g, w = .float g ∧ SameFloat f g
  | .double f, w => ∃ g, w = .double g ∧ NineDigits f g
  | .udim u, w => ∃ u', w = .udim u' ∧ SameUDim u u'
  | .udim2 x y, w => ∃ x' y', w = .udim2 x' y' ∧ SameUDim x x' ∧ SameUDim y y'
  | .ray o d, w => ∃ o' d', w = .ray o' d' ∧ SameVector3 o o' ∧ SameVector3 d d'
  | .faces r t b l bo f, w => w = .faces r t b l bo f
  | .axes x y z, w => w = .axes x y z
  | .brickColor n, w => w = .brickColor n
  | .color3 c, w => ∃ r g b, w = .color3 ⟨r, g, b⟩ ∧ SameFloat c.r r ∧ SameFloat c.g g ∧ SameFloat c.b b
  | .vector2 v, w => ∃ v', w = .vector2 v' ∧ SameVector2 v v'
  | .vector3 v, w => ∃ v', w = .vector3 v' ∧ SameVector3 v v'
  | .cframe p r, w => ∃ p' r', w = .cframe p' r' ∧ SameVector3 p p' ∧ SameRotation r r'
  | .token n, w => w = .token n
  | .reference p, w => w = .reference (p.bind φ)
  | .vector3int16 x y z, w => w = .vector3int16 x y z
  | .vector2int16 x y, w => w = .vector2int16 x y
  | .numberSequence ks, w => ∃ ks', w = .numberSequence ks' ∧ Each SixNumber ks ks'
  | .colorSequence ks, w => ∃ ks', w = .colorSequence ks' ∧ Each SixColor ks ks'
  | .numberRange a b, w => ∃ a' b', w = .numberRange a' b' ∧ SixDigits a a' ∧ SixDigits b b'
  | .rect a b, w => ∃ a' b', w = .rect a' b' ∧ SameVector2 a a' ∧ SameVector2 b b'
  | .physicalProperties c d f e fw ew, w =>
    if c then ∃ d' f' e' fw' ew', w = .physicalProperties true d' f' e' fw' ew' ∧ SameFloat d d' ∧ SameFloat f f' ∧
      SameFloat e e' ∧ SameFloat fw fw' ∧ SameFloat ew ew'
    else w = .physicalProperties false 0 0 0 0 0
  | .color3uint8 r g b, w => w = .color3uint8 r g b
  | .int64 n, w => w = .int64 n
  | .sharedString s, w => w = .sharedString s
  | .optional t none, w => w = .optional t none
  | .optional t (some v), w => ∃ x, w = .optional t (some x) ∧ XmlKept φ v x
  | .uniqueId r t i, w => w = .uniqueId r t i
  | .font fam wt st c, w => w = .font (normText fam) wt st (normText c)

/-- The zero value of a type. -/
def zeroXml {σ : Type} : Ty → Value σ
  | .binaryString => .binaryString []
  | .protectedString => .protectedString []
  | .content => .content []
  | t => zeroValue t

end Spec

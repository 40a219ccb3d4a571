import Verif.Spec.XmlValue
/-!
# Specification vocabulary: what the JSON form keeps of a value
-/
namespace Spec
open Go Rbxfile

variable {ρ : Type}

/-- The integer has at most 53 significant binary digits: a double represents it exactly. -/
def ExactDouble (n : Int) : Prop := ∃ m k : Nat, n.natAbs = m * 2 ^ k ∧ m < 2 ^ 53

/-- The same in every component. -/
def SameColor3 (a b : Color3) : Prop := SameFloat a.r b.r ∧ SameFloat a.g b.g ∧ SameFloat a.b b.b
/-- The same in every component. -/
def SameNumberKeypoint (a b : NumberKeypoint) : Prop :=
  SameFloat a.time b.time ∧ SameFloat a.value b.value ∧ SameFloat a.envelope b.envelope
/-- The same in every component. -/
def SameColorKeypoint (a b : ColorKeypoint) : Prop :=
  SameFloat a.time b.time ∧ SameColor3 a.value b.value ∧ SameFloat a.envelope b.envelope

/-- The values the JSON form keeps: the length of binary and shared strings is a multiple of three, a 64 bit integer is
exact as a double; Optional, UniqueId and Font are not supported. -/
def JsonSupported : Value ρ → Prop
  | .binaryString s => s.length % 3 = 0
  | .sharedString s => s.length % 3 = 0
  | .int64 n => ExactDouble n.toInt
  | .optional .. => False
  | .uniqueId .. => False
  | .font .. => False
  | _ => True

/-- `JsonKept φ v w`: `w` is the same value as `v`: the same bits, up to the bits of numbers that are not numbers. A
reference follows the correspondence `φ` of instances. -/
def JsonKept {σ : Type} (φ : ρ → Option σ) : Value ρ → Value σ → Prop
  | .string s, w => w = .string s
  | .binaryString s, w => w = .binaryString s
  | .protectedString s, w => w = .protectedString s
  | .content s, w => w = .content s
  | .bool b, w => w = .bool b
  | .int n, w => w = .int n
  | .float f, w => ∃ g, w = .float g ∧ SameFloat f g
  | .double f, w => w = .double f
  | .udim u, w => ∃ u', w = .udim u' ∧ SameUDim u u'
  | .udim2 x y, w => ∃ x' y', w = .udim2 x' y' ∧ SameUDim x x' ∧ SameUDim y y'
  | .ray o d, w => ∃ o' d', w = .ray o' d' ∧ SameVector3 o o' ∧ SameVector3 d d'
  | .faces r t b l bo f, w => w = .faces r t b l bo f
  | .axes x y z, w => w = .axes x y z
  | .brickColor n, w => w = .brickColor n
  | .color3 c, w => ∃ c', w = .color3 c' ∧ SameColor3 c c'
  | .vector2 v, w => ∃ v', w = .vector2 v' ∧ SameVector2 v v'
  | .vector3 v, w => ∃ v', w = .vector3 v' ∧ SameVector3 v v'
  | .cframe p r, w => ∃ p' r', w = .cframe p' r' ∧ SameVector3 p p' ∧ SameRotation r r'
  | .token n, w => w = .token n
  | .reference q, w => w = .reference (q.bind φ)
  | .vector3int16 x y z, w => w = .vector3int16 x y z
  | .vector2int16 x y, w => w = .vector2int16 x y
  | .numberSequence ks, w => ∃ ks', w = .numberSequence ks' ∧ Each SameNumberKeypoint ks ks'
  | .colorSequence ks, w => ∃ ks', w = .colorSequence ks' ∧ Each SameColorKeypoint ks ks'
  | .numberRange a b, w => ∃ a' b', w = .numberRange a' b' ∧ SameFloat a a' ∧ SameFloat b b'
  | .rect a b, w => ∃ a' b', w = .rect a' b' ∧ SameVector2 a a' ∧ SameVector2 b b'
  | .physicalProperties c d f e fw ew, w => ∃ d' f' e' fw' ew', w = .physicalProperties c d' f' e' fw' ew' ∧
      SameFloat d d' ∧ SameFloat f f' ∧ SameFloat e e' ∧ SameFloat fw fw' ∧ SameFloat ew ew'
  | .color3uint8 r g b, w => w = .color3uint8 r g b
  | .int64 n, w => w = .int64 n
  | .sharedString s, w => w = .sharedString s
  | .optional .., _ => False
  | .uniqueId .., _ => False
  | .font .., _ => False

end Spec

import Verif.Spec.Tree
import Verif.Rbxl.CFrame
/-!
# Specification vocabulary: what the binary format keeps of a value
-/
namespace Spec
open Go Rbxfile

variable {ρ : Type}

/-- The types the binary format distinguishes: it has a single string type. -/
def binType : Ty → Ty
  | .binaryString => .string
  | .protectedString => .string
  | .content => .string
  | t => t

/-- Types of which the format stores the bytes of an array interleaved. Optional values of these
types are not supported by the code (property C06). -/
def interleavedTy : Ty → Bool
  | .int | .float | .udim | .udim2 | .brickColor | .color3 | .vector2 | .vector3 | .token
  | .reference | .rect | .color3uint8 | .int64 | .sharedString | .uniqueId => true
  | _ => false

/-- Optional values the format can represent: not of an interleaved type, and with the announced
type (which the constructors of the package guarantee). -/
def Supported : Value ρ → Prop
  | .optional t o => interleavedTy t = false ∧ ∀ v, o = some v → v.type = t
  | _ => True

/-- Same numbers: equal, except that a zero may have another sign. -/
def SameMatrix (a b : Matrix) : Prop := a = b ∨ Rbxl.matrixEq a b = true

/-- What remains of a rotation: the rotation itself, or the one of the 24 rotations along the axes that has the same numbers. -/
def StoredRotation (r r' : Matrix) : Prop :=
  r' = r ∨ (Rbxl.matrixEq r r' = true ∧ ∃ e ∈ Rbxl.cframeSpecialTable, r' = e.2)

/-- In either case the numbers are the same. -/
theorem StoredRotation.same {r r' : Matrix} (h : StoredRotation r r') : SameMatrix r r' := by
  rcases h with h | h
  · exact .inl h.symm
  · exact .inr h.1

/-- `Kept φ v w`: `w` is what remains of the value `v` in the decoded tree. The four kinds of
strings become strings; a reference follows the correspondence `φ` of instances, and becomes nil
if it leads outside; the properties of PhysicalProperties are lost if they are not custom; a
rotation keeps its numbers, but the sign of a zero may change, and only if it is a rotation along the axes; everything else is
unchanged. -/
def Kept {σ : Type} (φ : ρ → Option σ) : Value ρ → Value σ → Prop
  | .string s, w => w = .string s
  | .binaryString s, w => w = .string s
  | .protectedString s, w => w = .string s
  | .content s, w => w = .string s
  | .bool b, w => w = .bool b
  | .int n, w => w = .int n
  | .float f, w => w = .float f
  | .double f, w => w = .double f
  | .udim u, w => w = .udim u
  | .udim2 x y, w => w = .udim2 x y
  | .ray o d, w => w = .ray o d
  | .faces r t b l bo f, w => w = .faces r t b l bo f
  | .axes x y z, w => w = .axes x y z
  | .brickColor n, w => w = .brickColor n
  | .color3 c, w => w = .color3 c
  | .vector2 v, w => w = .vector2 v
  | .vector3 v, w => w = .vector3 v
  | .cframe p r, w => ∃ r', w = .cframe p r' ∧ StoredRotation r r'
  | .token n, w => w = .token n
  | .reference p, w => w = .reference (p.bind φ)
  | .vector3int16 x y z, w => w = .vector3int16 x y z
  | .vector2int16 x y, w => w = .vector2int16 x y
  | .numberSequence ks, w => w = .numberSequence ks
  | .colorSequence ks, w => w = .colorSequence ks
  | .numberRange a b, w => w = .numberRange a b
  | .rect a b, w => w = .rect a b
  | .physicalProperties c d f e fw ew, w =>
      w = if c then .physicalProperties true d f e fw ew else .physicalProperties false 0 0 0 0 0
  | .color3uint8 r g b, w => w = .color3uint8 r g b
  | .int64 n, w => w = .int64 n
  | .sharedString s, w => w = .sharedString s
  | .optional t none, w => w = .optional (binType t) none
  | .optional t (some v), w => ∃ x, w = .optional (binType t) (some x) ∧ Kept φ v x
  | .uniqueId r t i, w => w = .uniqueId r t i
  | .font fam wt st c, w => w = .font fam wt st c

/-- The zero value of a type; for Optional, of an optional of strings. -/
def zeroValue {σ : Type} : Ty → Value σ
  | .bool => .bool false
  | .int => .int 0
  | .float => .float 0
  | .double => .double 0
  | .udim => .udim ⟨0, 0⟩
  | .udim2 => .udim2 ⟨0, 0⟩ ⟨0, 0⟩
  | .ray => .ray ⟨0, 0, 0⟩ ⟨0, 0, 0⟩
  | .faces => .faces false false false false false false
  | .axes => .axes false false false
  | .brickColor => .brickColor 0
  | .color3 => .color3 ⟨0, 0, 0⟩
  | .vector2 => .vector2 ⟨0, 0⟩
  | .vector3 => .vector3 ⟨0, 0, 0⟩
  | .cframe => .cframe ⟨0, 0, 0⟩ ⟨0, 0, 0, 0, 0, 0, 0, 0, 0⟩
  | .token => .token 0
  | .reference => .reference none
  | .vector3int16 => .vector3int16 0 0 0
  | .vector2int16 => .vector2int16 0 0
  | .numberSequence => .numberSequence []
  | .colorSequence => .colorSequence []
  | .numberRange => .numberRange 0 0
  | .rect => .rect ⟨0, 0⟩ ⟨0, 0⟩
  | .physicalProperties => .physicalProperties false 0 0 0 0 0
  | .color3uint8 => .color3uint8 0 0 0
  | .int64 => .int64 0
  | .sharedString => .sharedString []
  | .uniqueId => .uniqueId 0 0 0
  | .font => .font [] 0 0 []
  | .optional => .optional .string none
  | _ => .string []

/-- The values a list of instances has for a property. -/
def valuesOf (insts : List (Inst ρ)) (name : Bytes) : List (Value ρ) :=
  insts.filterMap fun i => i.properties.get? name

/-- The conditions under which the encoder does not panic on the optional values of a property:
there is one element type, a type the format can store, and the values have it. -/
def OptionalsOk (vs : List (Value ρ)) : Prop :=
  ∀ t o, .optional t o ∈ vs → t ≠ .invalid ∧ t ≠ .optional ∧
    (∀ v, o = some v → binType v.type = binType t) ∧
    ∀ t' o', .optional t' o' ∈ vs → binType t' = binType t

/-- The instances of a class. -/
def classmates (l : Map ρ (Inst ρ)) (cls : Bytes) : List (Inst ρ) :=
  (l.map Prod.snd).filter fun i => decide (i.className = cls)

/-- A shared string occurring in the tree. -/
def UsedShared (l : Map ρ (Inst ρ)) (s : Bytes) : Prop :=
  ∃ x ∈ l, ∃ n, x.2.properties.get? n = some (.sharedString s)

/-- `φ` is a one-to-one correspondence between the instances listed by `l` and those of `h`. -/
structure Corresp {σ : Type} [DecidableEq σ] (l : Map ρ (Inst ρ)) (φ : ρ → Option σ)
    (h : Heap σ) : Prop where
  defined : ∀ p, (φ p).isSome ↔ p ∈ l.map Prod.fst
  injective : ∀ p p' q, φ p = some q → φ p' = some q → p = p'
  surjective : ∀ q, (h.get? q).isSome ↔ ∃ p, φ p = some q

/-- A property is written if some instance of the class has it, the instances agree about the type,
and unique ids only for a place. -/
def Written (place : Bool) (vs : List (Value ρ)) : Prop :=
  vs ≠ [] ∧ ∃ t, (∀ v ∈ vs, binType v.type = t) ∧ (t = .uniqueId → place = true)

/-- What the code stores for instances without a property, for the two types for which it is not the zero value of the type: a
reference to `first` and the shared string `shared`. -/
structure Missing (σ : Type) where
  first : Option σ
  shared : Bytes

/-- The value `w` decoded for a property of which the instances of the class have the values `vs`
and the instance itself `own` (or nothing). -/
def Expected {σ : Type} (φ : ρ → Option σ) (d : Missing σ) (vs : List (Value ρ)) (own : Option (Value ρ))
    (w : Value σ) : Prop :=
  (∀ v, own = some v → Kept φ v w) ∧
  (own = none → ∀ v ∈ vs,
    match v with
    | .reference _ => w = .reference d.first
    | .sharedString _ => w = .sharedString d.shared
    | .optional t _ => w = .optional (binType t) none
    | v => w = zeroValue (binType v.type))

end Spec

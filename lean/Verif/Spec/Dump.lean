import Verif.Rbxl.ModelLemmas
import Verif.Rbxl.Partial
import Verif.Go.Float
/-!
# Specification vocabulary: what a dump shows

The dump of a file does not show the bits of a NaN, and the fields that the format does not store (`Val.canon`).
-/
namespace Spec
open Go Rbxl

/-- A float, up to the bits of a NaN. -/
def shown32 (f : F32) : F32 := if F32.isNaN f then 0x7fc00000#32 else f

/-- A float64 is a NaN. -/
def isNaN64 (f : F64) : Bool := decide (0x7ff0000000000000 < f.toNat % 2 ^ 63)

/-- A float64, up to the bits of a NaN. -/
def shown64 (f : F64) : F64 := if isNaN64 f then 0x7ff8000000000001#64 else f

/-- A vector, up to the bits of NaNs. -/
def shownVec3 (v : Vec3) : Vec3 := ⟨shown32 v.x, shown32 v.y, shown32 v.z⟩

/-- A rotation, up to the bits of NaNs. -/
def shownRot (r : Rot) : Rot :=
  ⟨shown32 r.m0, shown32 r.m1, shown32 r.m2, shown32 r.m3, shown32 r.m4, shown32 r.m5, shown32 r.m6, shown32 r.m7, shown32 r.m8⟩

/-- A value, up to the bits of NaNs. -/
def numbersShown : Val → Val
  | .float f => .float (shown32 f)
  | .double f => .double (shown64 f)
  | .udim s o => .udim (shown32 s) o
  | .udim2 sx sy ox oy => .udim2 (shown32 sx) (shown32 sy) ox oy
  | .ray a b c d e f => .ray (shown32 a) (shown32 b) (shown32 c) (shown32 d) (shown32 e) (shown32 f)
  | .color3 r g b => .color3 (shown32 r) (shown32 g) (shown32 b)
  | .vector2 x y => .vector2 (shown32 x) (shown32 y)
  | .vector3 v => .vector3 (shownVec3 v)
  | .cframe sp r p => .cframe sp (shownRot r) (shownVec3 p)
  | .cframeQuat sp x y z w p => .cframeQuat sp (shown32 x) (shown32 y) (shown32 z) (shown32 w) (shownVec3 p)
  | .numberSequence ks => .numberSequence (ks.map fun k => ⟨shown32 k.time, shown32 k.value, shown32 k.envelope⟩)
  | .colorSequence ks => .colorSequence (ks.map fun k => ⟨shown32 k.time, shown32 k.r, shown32 k.g, shown32 k.b, shown32 k.envelope⟩)
  | .numberRange a b => .numberRange (shown32 a) (shown32 b)
  | .rect a b c d => .rect (shown32 a) (shown32 b) (shown32 c) (shown32 d)
  | .physicalProperties cp a b c d e => .physicalProperties cp (shown32 a) (shown32 b) (shown32 c) (shown32 d) (shown32 e)
  | v => v

/-- A value as the dump shows it. -/
def shownVal (v : Val) : Val := numbersShown v.canon

/-- An array as the dump shows it. -/
def shownArr : Arr → Arr
  | .plain t vs => .plain t (vs.map shownVal)
  | .optional (.plain t vs) present => .optional (.plain t (vs.map shownVal)) present
  | a => a

/-- The content of a chunk as the dump shows it. -/
def shownBody : Body → Body
  | .inst c => .inst c.canon
  | .prop c => .prop { c with props := c.props.map shownArr }
  | b => b

/-- A chunk as the dump shows it. -/
def shownChunk (c : Chunk) : Chunk := ⟨shownBody c.body, c.compressed⟩

/-- All values of an array have its type, and the array is not an array of optionals of optionals. -/
def plainArr : Arr → Prop
  | .plain t vs => t ≠ .optional ∧ ∀ v ∈ vs, v.type = t
  | .optional (.plain t vs) present => t ≠ .optional ∧ (∀ v ∈ vs, v.type = t) ∧ present.length = vs.length
  | _ => False

/-- A chunk that could be decoded, without optionals of optionals. -/
def plainBody : Body → Prop
  | .inst c => c.isService = true → c.getService.length = c.ids.length
  | .prop c => ∀ a, c.props = some a → plainArr a
  | .unknown sig _ => sig ≠ sigINST ∧ sig ≠ sigPROP ∧ sig ≠ sigPRNT ∧ sig ≠ sigMETA ∧ sig ≠ sigSSTR ∧ sig ≠ sigEND
  | .errored _ _ => False
  | _ => True

/-- An array of optionals of optionals. -/
def nestedOptional : Arr → Prop
  | .plain _ _ => False
  | .optional (.plain _ _) _ => False
  | _ => True

/-- Every chunk could be decoded, and no array is an array of optionals of optionals. -/
def wellDecoded (f : FormatModel) : Prop := ∀ c ∈ f.chunks,
  (∀ sig bytes, c.body ≠ .errored sig bytes) ∧ ∀ p a, c.body = .prop p → p.props = some a → ¬ nestedOptional a

/-- The `i`-th element of the array has a value: every Optional around it is present. -/
inductive HasValue : Arr → Nat → Prop
  | plain {t : TypeID} {vs : List Val} {i : Nat} : i < vs.length → HasValue (.plain t vs) i
  | optional {a : Arr} {present : List Bool} {i : Nat} : present[i]? = some true → HasValue a i →
    HasValue (.optional a present) i

/-- The array is one of Optionals, and an element, present or not, has an Optional without a value inside. -/
def HollowOptional : Arr → Prop
  | .optional a present => ∃ i, i < a.len ∧ i < present.length ∧ ¬ HasValue a i
  | _ => False

/-- The groups that chunks make, the first of which has the number `i`. -/
def lookupAfter : Nat → Map (BitVec 32) (Nat × InstChunk) → List Chunk → Map (BitVec 32) (Nat × InstChunk)
  | _, groups, [] => groups
  | i, groups, c :: cs => lookupAfter (i + 1) (addGroup i groups c.body) cs

/-- The chunk is one of a property, and its array is one of such Optionals; in a chunk that could not be decoded, as far as it was. -/
def HollowChunk (spill : Nat → Bytes → Bytes) (slack : Bytes → Nat) (groups : Map (BitVec 32) (Nat × InstChunk)) (c : Chunk) : Prop :=
  ∃ p a, c.body.decoded spill slack groups = .prop p ∧ p.props = some a ∧ HollowOptional a

/-- The file has such a chunk. -/
def Hollow (spill : Nat → Bytes → Bytes) (slack : Bytes → Nat) (f : FormatModel) : Prop :=
  ∃ before c after, f.chunks = before ++ c :: after ∧ HollowChunk spill slack (lookupAfter 0 [] before) c

end Spec

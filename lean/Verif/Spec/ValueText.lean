import Verif.Rbxfile.Values
import Verif.Spec.Dump
/-!
# Specification vocabulary: what the text of a value shows

Of a NaN, only that it is one; of physical properties that are not custom, nothing else; of a font, not the cached face, and of a
weight or style that is none of the known ones, nothing else.
-/
namespace Spec
open Go Rbxfile

/-- The valid font weights. -/
def knownWeights : List (BitVec 16) := [100, 200, 300, 400, 500, 600, 700, 800, 900]

/-- A UDim, up to the bits of a NaN. -/
def seenUDim (u : UDim) : UDim := ⟨shown32 u.scale, u.offset⟩
/-- A vector, up to the bits of NaNs. -/
def seenVector3 (v : Vector3) : Vector3 := ⟨shown32 v.x, shown32 v.y, shown32 v.z⟩
/-- A vector, up to the bits of NaNs. -/
def seenVector2 (v : Vector2) : Vector2 := ⟨shown32 v.x, shown32 v.y⟩
/-- A color, up to the bits of NaNs. -/
def seenColor3 (c : Color3) : Color3 := ⟨shown32 c.r, shown32 c.g, shown32 c.b⟩
/-- A matrix, up to the bits of NaNs. -/
def seenMatrix (m : Matrix) : Matrix :=
  ⟨shown32 m.m0, shown32 m.m1, shown32 m.m2, shown32 m.m3, shown32 m.m4, shown32 m.m5, shown32 m.m6, shown32 m.m7, shown32 m.m8⟩

/-- A value without what its text does not show. -/
def seenValue {ρ : Type} : Value ρ → Value ρ
  | .float f => .float (shown32 f)
  | .double f => .double (shown64 f)
  | .udim u => .udim (seenUDim u)
  | .udim2 x y => .udim2 (seenUDim x) (seenUDim y)
  | .ray o d => .ray (seenVector3 o) (seenVector3 d)
  | .color3 c => .color3 (seenColor3 c)
  | .vector2 v => .vector2 (seenVector2 v)
  | .vector3 v => .vector3 (seenVector3 v)
  | .cframe p r => .cframe (seenVector3 p) (seenMatrix r)
  | .numberSequence ks => .numberSequence (ks.map fun k => ⟨shown32 k.time, shown32 k.value, shown32 k.envelope⟩)
  | .colorSequence ks => .colorSequence (ks.map fun k => ⟨shown32 k.time, seenColor3 k.value, shown32 k.envelope⟩)
  | .numberRange a b => .numberRange (shown32 a) (shown32 b)
  | .rect a b => .rect (seenVector2 a) (seenVector2 b)
  | .physicalProperties custom a b c d e =>
    if custom then .physicalProperties true (shown32 a) (shown32 b) (shown32 c) (shown32 d) (shown32 e)
    else .physicalProperties false 0 0 0 0 0
  | .font family weight style _ =>
    .font family (if weight ∈ knownWeights then weight else 0) (if style = 0 ∨ style = 1 then style else 2) []
  | v => v

end Spec

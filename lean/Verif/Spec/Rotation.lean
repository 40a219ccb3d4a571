import Verif.Go.Float
import Verif.Rbxfile.Values
/-!
# Specification vocabulary: axis-aligned rotations
-/
namespace Spec
open Go Rbxfile

/-- A vector with integer components. -/
structure IVec where
  x : Int
  y : Int
  z : Int
  deriving DecidableEq, Repr

/-- The cross product. -/
def IVec.cross (a b : IVec) : IVec :=
  ⟨a.y * b.z - a.z * b.y, a.z * b.x - a.x * b.z, a.x * b.y - a.y * b.x⟩
/-- The dot product. -/
def IVec.dot (a b : IVec) : Int := a.x * b.x + a.y * b.y + a.z * b.z

/-- The normal ids of Roblox in order: right, top, back, left, bottom, front. -/
def normals : List IVec :=
  [⟨1, 0, 0⟩, ⟨0, 1, 0⟩, ⟨0, 0, 1⟩, ⟨-1, 0, 0⟩, ⟨0, -1, 0⟩, ⟨0, 0, -1⟩]

/-- The float is the integer `n` (`0` may have either sign). -/
def IsInt (f : F32) (n : Int) : Prop :=
  (n = 0 ∧ f.isZero = true) ∨ (n = 1 ∧ f = f32One) ∨ (n = -1 ∧ f = f32NegOne)

/-- The matrix (stored row by row) has these columns. -/
structure Columns (m : Matrix) (x y z : IVec) : Prop where
  m0 : IsInt m.m0 x.x
  m3 : IsInt m.m3 x.y
  m6 : IsInt m.m6 x.z
  m1 : IsInt m.m1 y.x
  m4 : IsInt m.m4 y.y
  m7 : IsInt m.m7 y.z
  m2 : IsInt m.m2 z.x
  m5 : IsInt m.m5 z.y
  m8 : IsInt m.m8 z.z

/-- The matrix is the rotation that turns the X axis into normal `i` and the Y axis into normal `j`
(numbered from 0), which must be perpendicular; the Z axis follows. -/
def RotationTo (m : Matrix) (i j : Nat) : Prop :=
  ∃ x y, normals[i]? = some x ∧ normals[j]? = some y ∧ x.dot y = 0 ∧ Columns m x y (x.cross y)

/-- The matrix is a rotation by multiples of 90 degrees: its columns are perpendicular unit vectors
along the axes, forming a right-handed system. -/
def AxisAligned (m : Matrix) : Prop :=
  ∃ x ∈ normals, ∃ y ∈ normals, ∃ z ∈ normals, Columns m x y z ∧
    x.dot y = 0 ∧ y.dot z = 0 ∧ x.dot z = 0 ∧ (x.cross y).dot z = 1

end Spec

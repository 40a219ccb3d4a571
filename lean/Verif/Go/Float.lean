import Verif.Go.Basic
/-!
# Go `float32` comparison on bit patterns
-/
namespace Go

/-- The value is a NaN: exponent all ones, mantissa not zero. -/
def F32.isNaN (a : F32) : Bool := decide (0x7f800000 < (a &&& 0x7fffffff#32).toNat)
/-- The value is `+0` or `-0`. -/
def F32.isZero (a : F32) : Bool := (a &&& 0x7fffffff#32) == 0#32

/-- Go's `==` on `float32`: a NaN differs from everything, the zeros are equal. -/
def F32.goEq (a b : F32) : Bool :=
  !a.isNaN && !b.isNaN && (a == b || (a.isZero && b.isZero))

/-- `float32(1)`. -/
def f32One : F32 := 0x3f800000
/-- `float32(-1)`. -/
def f32NegOne : F32 := 0xbf800000
/-- `float32(math.Copysign(0, -1))`. -/
def f32NegZero : F32 := 0x80000000

end Go

import Verif.Go.Float
import Verif.Rbxl.Values
import Verif.Rbxfile.Values
/-!
# Special rotations (rbxl/cframe.go)
-/
namespace Rbxl
open Go Rbxfile

private abbrev o : F32 := 0
private abbrev n : F32 := f32NegZero
private abbrev p1 : F32 := f32One
private abbrev m1 : F32 := f32NegOne

/-- `cframeSpecialMatrix` (rbxl/cframe.go:28-54). -/
def cframeSpecialTable : List (Byte × Matrix) := [
  (0x02, ⟨p1, o, o, o, p1, o, o, o, p1⟩),
  (0x03, ⟨p1, o, o, o, o, m1, o, p1, o⟩),
  (0x05, ⟨p1, o, o, o, m1, o, o, o, m1⟩),
  (0x06, ⟨p1, o, n, o, o, p1, o, m1, o⟩),
  (0x07, ⟨o, p1, o, p1, o, o, o, o, m1⟩),
  (0x09, ⟨o, o, p1, p1, o, o, o, p1, o⟩),
  (0x0A, ⟨o, m1, o, p1, o, n, o, o, p1⟩),
  (0x0C, ⟨o, o, m1, p1, o, o, o, m1, o⟩),
  (0x0D, ⟨o, p1, o, o, o, p1, p1, o, o⟩),
  (0x0E, ⟨o, o, m1, o, p1, o, p1, o, o⟩),
  (0x10, ⟨o, m1, o, o, o, m1, p1, o, o⟩),
  (0x11, ⟨o, o, p1, o, m1, o, p1, o, n⟩),
  (0x14, ⟨m1, o, o, o, p1, o, o, o, m1⟩),
  (0x15, ⟨m1, o, o, o, o, p1, o, p1, n⟩),
  (0x17, ⟨m1, o, o, o, m1, o, o, o, p1⟩),
  (0x18, ⟨m1, o, n, o, o, m1, o, m1, n⟩),
  (0x19, ⟨o, p1, n, m1, o, o, o, o, p1⟩),
  (0x1B, ⟨o, o, m1, m1, o, o, o, p1, o⟩),
  (0x1C, ⟨o, m1, n, m1, o, n, o, o, m1⟩),
  (0x1E, ⟨o, o, p1, m1, o, o, o, m1, o⟩),
  (0x1F, ⟨o, p1, o, o, o, m1, m1, o, o⟩),
  (0x20, ⟨o, o, p1, o, p1, n, m1, o, o⟩),
  (0x22, ⟨o, m1, o, o, o, p1, m1, o, o⟩),
  (0x23, ⟨o, o, m1, o, m1, n, m1, o, n⟩)]

/-- `[9]float32{}`. -/
def zeroMatrix : Matrix := ⟨0, 0, 0, 0, 0, 0, 0, 0, 0⟩

/-- `cframeSpecialMatrix[i]`: the zero matrix for a missing key. -/
def cframeSpecialMatrix (i : Byte) : Matrix :=
  ((cframeSpecialTable.find? fun e => e.1 == i).map Prod.snd).getD zeroMatrix

/-- `==` on `[9]float32`. -/
def matrixEq (a b : Matrix) : Bool :=
  a.m0.goEq b.m0 && a.m1.goEq b.m1 && a.m2.goEq b.m2 && a.m3.goEq b.m3 && a.m4.goEq b.m4 &&
  a.m5.goEq b.m5 && a.m6.goEq b.m6 && a.m7.goEq b.m7 && a.m8.goEq b.m8

/-- `cframeSpecialNumber[m]` with its `ok` (rbxl/cframe.go:56-81): every entry maps the matrix of an
id to the id. Map keys are compared with `==`. -/
def cframeSpecialNumber (m : Matrix) : Option Byte :=
  (cframeSpecialTable.find? fun e => matrixEq e.2 m).map Prod.fst

/-- `x*y` in `float32` for operands among `±0`, `±1`: the signs multiply, the result is zero when one
operand is. -/
def mulUnit (x y : F32) : F32 :=
  ((x ^^^ y) &&& 0x80000000#32) ||| (if x.isZero || y.isZero then 0#32 else 0x3f800000#32)

/-- `x-y` in `float32` for operands among `±0`, `±1` of which at least one is zero (rounding to
nearest: the difference of two equal zeros is `+0`). -/
def subUnit (x y : F32) : F32 :=
  if y.isZero then (if x.isZero then (if x == f32NegZero && y == 0#32 then f32NegZero else 0#32)
    else x)
  else y ^^^ 0x80000000#32

/-- `1 - float32(k*2)` for `k` among 0 and 1. -/
def unitSign (k : Nat) : F32 := if k = 0 then f32One else f32NegOne

/-- `matrixFromID` (rbxl/cframe.go:7-22). `i--` wraps around. The products and differences have
operands among `±0` and `±1`, for which `mulUnit` and `subUnit` are exact. -/
def matrixFromID (i : Byte) : Matrix :=
  let i := (i - 1#8).toNat
  if 35 ≤ i ∨ i / 6 % 3 = i % 3 then zeroMatrix
  else
    let m : List F32 := ((List.replicate 9 (0#32 : F32)).set (i / 6 % 3 * 3) (unitSign (i / 18))).set
      (i % 6 % 3 * 3 + 1) (unitSign (i % 6 / 3))
    let at_ (k : Nat) : F32 := m[k]?.getD 0
    ⟨at_ 0, at_ 1, subUnit (mulUnit (at_ 3) (at_ 7)) (mulUnit (at_ 4) (at_ 6)),
     at_ 3, at_ 4, subUnit (mulUnit (at_ 6) (at_ 1)) (mulUnit (at_ 7) (at_ 0)),
     at_ 6, at_ 7, subUnit (mulUnit (at_ 0) (at_ 4)) (mulUnit (at_ 1) (at_ 3))⟩

end Rbxl

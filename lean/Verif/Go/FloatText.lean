import Verif.Go.Float
/-!
# Formatting and parsing floating point numbers (strconv)

The conversions between floating point numbers and text are parameters of the model of the XML codec.
-/
namespace Go

/-- The functions of the Go library that the codec uses. -/
structure FloatText where
  /-- `strconv.FormatFloat(float64(f), 'g', prec, 32)` -/
  format32 : Nat → F32 → Bytes
  /-- `strconv.FormatFloat(f, 'g', prec, 64)` -/
  format64 : Nat → F64 → Bytes
  /-- `float32(strconv.ParseFloat(s, 32))`; `none` is an error -/
  parse32 : Bytes → Option F32
  /-- `strconv.ParseFloat(s, 64)`; `none` is an error -/
  parse64 : Bytes → Option F64
  /-- `float32(n) / 255` -/
  frac255 : Byte → F32

end Go

import Verif.Go.Shortest
import Verif.Rbxfile.Names
/-!
# The text of a value (the `String` methods of values.go)
-/
namespace Rbxfile
open Go

/-- `joinstr` (values.go:167-179): the parts one after the other. -/
def joinstr (a : List Bytes) : Bytes := a.flatten

/-- `strconv.FormatFloat(float64(f), 'f', -1, 32)`. -/
def floatText (f : F32) : Bytes := short32 layoutF f

/-- `strconv.FormatInt(int64(n), 10)` for a signed `n`. -/
def intText {w : Nat} (n : BitVec w) : Bytes := formatInt n.toInt

/-- `strconv.FormatUint(uint64(n), 10)`; `strconv.FormatInt(int64(n), 10)` for an unsigned `n`. -/
def uintText {w : Nat} (n : BitVec w) : Bytes := formatUint n.toNat

/-- `ValueUDim.String` (values.go:352-358). -/
def UDim.text (u : UDim) : Bytes := joinstr [floatText u.scale, str ", ", intText u.offset]

/-- `ValueVector3.String` (values.go:567-575). -/
def Vector3.text (v : Vector3) : Bytes := joinstr [floatText v.x, str ", ", floatText v.y, str ", ", floatText v.z]

/-- The slice that `ValueFaces.String` and `ValueAxes.String` make: the names of the flags that are set. -/
def flagNames (fs : List (Bool × String)) : List Bytes := (fs.filter Prod.fst).map fun f => str f.2

/-- `ValueNumberSequenceKeypoint.String` (values.go:708-716). -/
def NumberKeypoint.text (k : NumberKeypoint) : Bytes :=
  joinstr [floatText k.time, str " ", floatText k.value, str " ", floatText k.envelope]

/-- `ValueColorSequenceKeypoint.String` (values.go:749-761). -/
def ColorKeypoint.text (k : ColorKeypoint) : Bytes :=
  joinstr [floatText k.time, str " ", floatText k.value.r, str " ", floatText k.value.g, str " ", floatText k.value.b, str " ",
    floatText k.envelope]

/-- The loop of `ValueNumberSequence.String` and `ValueColorSequence.String` (values.go:727-734, 772-779): every keypoint is
followed by a blank. -/
def keypointsText (ts : List Bytes) : Bytes := ts.flatMap fun t => t ++ [32#8]

/-- The elements of `[9]float32`, in order. -/
def Matrix.entries (m : Matrix) : List F32 := [m.m0, m.m1, m.m2, m.m3, m.m4, m.m5, m.m6, m.m7, m.m8]

/-- The `String` methods (values.go:193-1179, cited at the cases). `refOf` is the field `Reference` of an instance. -/
def Value.text {ρ : Type} (refOf : ρ → Bytes) : Value ρ → Bytes
  -- values.go:193-195, 213-215, 233-235, 253-255
  | .string s => s
  | .binaryString s => s
  | .protectedString s => s
  | .content s => s
  -- values.go:273-279
  | .bool b => if b then str "true" else str "false"
  -- values.go:295-297
  | .int n => intText n
  -- values.go:313-315, 331-333
  | .float f => floatText f
  | .double f => short64 layoutF f
  | .udim u => u.text
  -- values.go:376-384
  | .udim2 x y => joinstr [str "{", x.text, str "}, {", y.text, str "}"]
  -- values.go:402-410
  | .ray o d => joinstr [str "{", o.text, str "}, {", d.text, str "}"]
  -- values.go:428-450
  | .faces right top back left bottom front => List.intercalate (str ", ")
      (flagNames [(front, "Front"), (bottom, "Bottom"), (left, "Left"), (back, "Back"), (top, "Top"), (right, "Right")])
  -- values.go:468-481
  | .axes x y z => List.intercalate (str ", ") (flagNames [(x, "X"), (y, "Y"), (z, "Z")])
  -- values.go:497-499
  | .brickColor n => uintText n
  -- values.go:517-525
  | .color3 c => joinstr [floatText c.r, str ", ", floatText c.g, str ", ", floatText c.b]
  -- values.go:543-549
  | .vector2 v => joinstr [floatText v.x, str ", ", floatText v.y]
  | .vector3 v => v.text
  -- values.go:597-606
  | .cframe p r => List.intercalate (str ", ") (floatText p.x :: floatText p.y :: floatText p.z :: r.entries.map floatText)
  -- values.go:622-624
  | .token n => uintText n
  -- values.go:642-647
  | .reference none => str "<nil>"
  | .reference (some p) => refOf p
  -- values.go:665-673, 691-697
  | .vector3int16 x y z => joinstr [intText x, str ", ", intText y, str ", ", intText z]
  | .vector2int16 x y => joinstr [intText x, str ", ", intText y]
  | .numberSequence ks => keypointsText (ks.map NumberKeypoint.text)
  | .colorSequence ks => keypointsText (ks.map ColorKeypoint.text)
  -- values.go:799-805
  | .numberRange a b => joinstr [floatText a, str " ", floatText b]
  -- values.go:823-833
  | .rect a b => joinstr [floatText a.x, str ", ", floatText a.y, str ", ", floatText b.x, str ", ", floatText b.y]
  -- values.go:856-867
  | .physicalProperties custom density friction elasticity frictionWeight elasticityWeight =>
    if custom then joinstr [floatText density, str ", ", floatText friction, str ", ", floatText elasticity, str ", ",
      floatText frictionWeight, str ", ", floatText elasticityWeight]
    else str "nil"
  -- values.go:885-893
  | .color3uint8 r g b => joinstr [uintText r, str ", ", uintText g, str ", ", uintText b]
  -- values.go:910-912, 929-931
  | .int64 n => intText n
  | .sharedString s => s
  -- values.go:971-976
  | .optional _ none => str "nil"
  | .optional _ (some v) => v.text refOf
  -- values.go:1042-1053
  | .uniqueId random time index => uniqueIdString random time index
  -- values.go:1169-1179
  | .font family weight style _ => str "Font { Family = " ++ (family ++ (str ", Weight = " ++ (fontWeightString weight ++
      (str ", Style = " ++ (fontStyleString style ++ str " }")))))

end Rbxfile

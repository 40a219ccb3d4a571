import Verif.Go.Sort
import Verif.Rbxfile.Values
/-!
# Type names, new values, font names, hexadecimal ids (values.go, ref.go)
-/
namespace Rbxfile
open Go

/-- The numeric value of a `Type` (values.go:22-57). -/
def Ty.code : Ty → Byte
  | .invalid => 0 | .string => 1 | .binaryString => 2 | .protectedString => 3 | .content => 4
  | .bool => 5 | .int => 6 | .float => 7 | .double => 8 | .udim => 9 | .udim2 => 10 | .ray => 11
  | .faces => 12 | .axes => 13 | .brickColor => 14 | .color3 => 15 | .vector2 => 16
  | .vector3 => 17 | .cframe => 18 | .token => 19 | .reference => 20 | .vector3int16 => 21
  | .vector2int16 => 22 | .numberSequence => 23 | .colorSequence => 24 | .numberRange => 25
  | .rect => 26 | .physicalProperties => 27 | .color3uint8 => 28 | .int64 => 29
  | .sharedString => 30 | .optional => 31 | .uniqueId => 32 | .font => 33

/-- `typeStrings` (values.go:70-104). -/
def typeStrings : Map Byte Bytes := [
  (Ty.string.code, str "String"), (Ty.binaryString.code, str "BinaryString"),
  (Ty.protectedString.code, str "ProtectedString"), (Ty.content.code, str "Content"),
  (Ty.bool.code, str "Bool"), (Ty.int.code, str "Int"), (Ty.float.code, str "Float"),
  (Ty.double.code, str "Double"), (Ty.udim.code, str "UDim"), (Ty.udim2.code, str "UDim2"),
  (Ty.ray.code, str "Ray"), (Ty.faces.code, str "Faces"), (Ty.axes.code, str "Axes"),
  (Ty.brickColor.code, str "BrickColor"), (Ty.color3.code, str "Color3"),
  (Ty.vector2.code, str "Vector2"), (Ty.vector3.code, str "Vector3"),
  (Ty.cframe.code, str "CFrame"), (Ty.token.code, str "Token"),
  (Ty.reference.code, str "Reference"), (Ty.vector3int16.code, str "Vector3int16"),
  (Ty.vector2int16.code, str "Vector2int16"), (Ty.numberSequence.code, str "NumberSequence"),
  (Ty.colorSequence.code, str "ColorSequence"), (Ty.numberRange.code, str "NumberRange"),
  (Ty.rect.code, str "Rect"), (Ty.physicalProperties.code, str "PhysicalProperties"),
  (Ty.color3uint8.code, str "Color3uint8"), (Ty.int64.code, str "Int64"),
  (Ty.sharedString.code, str "SharedString"), (Ty.optional.code, str "Optional"),
  (Ty.uniqueId.code, str "UniqueId"), (Ty.font.code, str "Font")]

/-- `Type.String` (values.go:14-20); the argument is any value of the Go type. -/
def typeString (t : Byte) : Bytes := (typeStrings.get? t).getD (str "Invalid")

/-- `TypeFromString` (values.go:61-68); `it` is the order of iteration over the map. -/
def typeFromString (it : Iter) (s : Bytes) : Byte :=
  match (it.run [] typeStrings).find? fun e => e.2 == s with
  | some e => e.1
  | none => Ty.invalid.code

/-- `valueGenerators` (values.go:131-165) with the generators of values.go:186-1163. -/
def valueGenerators {ρ : Type} : Map Byte (Value ρ) := [
  (Ty.string.code, .string []), (Ty.binaryString.code, .binaryString []),
  (Ty.protectedString.code, .protectedString []), (Ty.content.code, .content []),
  (Ty.bool.code, .bool false), (Ty.int.code, .int 0), (Ty.float.code, .float 0),
  (Ty.double.code, .double 0), (Ty.udim.code, .udim ⟨0, 0⟩),
  (Ty.udim2.code, .udim2 ⟨0, 0⟩ ⟨0, 0⟩), (Ty.ray.code, .ray ⟨0, 0, 0⟩ ⟨0, 0, 0⟩),
  (Ty.faces.code, .faces false false false false false false),
  (Ty.axes.code, .axes false false false), (Ty.brickColor.code, .brickColor 0),
  (Ty.color3.code, .color3 ⟨0, 0, 0⟩), (Ty.vector2.code, .vector2 ⟨0, 0⟩),
  (Ty.vector3.code, .vector3 ⟨0, 0, 0⟩),
  (Ty.cframe.code, .cframe ⟨0, 0, 0⟩
    ⟨0x3f800000, 0, 0, 0, 0x3f800000, 0, 0, 0, 0x3f800000⟩),
  (Ty.token.code, .token 0), (Ty.reference.code, .reference none),
  (Ty.vector3int16.code, .vector3int16 0 0 0), (Ty.vector2int16.code, .vector2int16 0 0),
  (Ty.numberSequence.code, .numberSequence []), (Ty.colorSequence.code, .colorSequence []),
  (Ty.numberRange.code, .numberRange 0 0), (Ty.rect.code, .rect ⟨0, 0⟩ ⟨0, 0⟩),
  (Ty.physicalProperties.code, .physicalProperties false 0 0 0 0 0),
  (Ty.color3uint8.code, .color3uint8 0 0 0), (Ty.int64.code, .int64 0),
  (Ty.sharedString.code, .sharedString []), (Ty.optional.code, .optional .invalid none),
  (Ty.uniqueId.code, .uniqueId 0 0 0), (Ty.font.code, .font [] 0 0 [])]

/-- `NewValue` (values.go:121-127); `none` is nil. -/
def newValue {ρ : Type} (t : Byte) : Option (Value ρ) := valueGenerators.get? t

/-! ## Fonts -/

/-- `FontStyleFromString` (values.go:1068-1077): the style and `ok`. -/
def fontStyleFromString (s : Bytes) : Byte × Bool :=
  if s = str "Normal" then (0, true)
  else if s = str "Italic" then (1, true)
  else (0, false)

/-- `FontStyle.String` (values.go:1079-1088). -/
def fontStyleString (f : Byte) : Bytes :=
  if f = 0#8 then str "Normal" else if f = 1#8 then str "Italic" else str "<invalid>"

/-- `FontWeightFromString` (values.go:1104-1127): the weight and `ok`. -/
def fontWeightFromString (s : Bytes) : BitVec 16 × Bool :=
  if s = str "Thin" then (100, true)
  else if s = str "ExtraLight" then (200, true)
  else if s = str "Light" then (300, true)
  else if s = str "Regular" then (400, true)
  else if s = str "Medium" then (500, true)
  else if s = str "SemiBold" then (600, true)
  else if s = str "Bold" then (700, true)
  else if s = str "ExtraBold" then (800, true)
  else if s = str "Heavy" then (900, true)
  else (0, false)

/-- `FontWeight.String` (values.go:1129-1152). -/
def fontWeightString (f : BitVec 16) : Bytes :=
  if f = 100#16 then str "Thin"
  else if f = 200#16 then str "ExtraLight"
  else if f = 300#16 then str "Light"
  else if f = 400#16 then str "Regular"
  else if f = 500#16 then str "Medium"
  else if f = 600#16 then str "SemiBold"
  else if f = 700#16 then str "Bold"
  else if f = 800#16 then str "ExtraBold"
  else if f = 900#16 then str "Heavy"
  else str "<invalid>"

/-! ## Hexadecimal ids -/

/-- `"0123456789ABCDEF"` (ref.go:90). -/
def hexUpper : Bytes := str "0123456789ABCDEF"
/-- `"0123456789abcdef"` (values.go:1047). -/
def hexLower : Bytes := str "0123456789abcdef"

/-- `hextable[x]`; an index out of range cannot occur, see `hexLoop`. -/
def hexAt (table : Bytes) (x : Byte) : Byte := table[x.toNat]?.getD 0

/-- The expanding loop `for i := n - 1; i >= 0; i--` over the buffer (ref.go:91-94,
values.go:1048-1051): the two digits of byte `i` are stored at `2i` and `2i+1`, the buffer being
read while it is overwritten. -/
def hexLoop (table : Bytes) : Nat → Bytes → Bytes
  | 0, buf => buf
  | i + 1, buf =>
    let buf := buf.set (i * 2 + 1) (hexAt table (buf[i]?.getD 0 &&& 0x0F#8))
    let buf := buf.set (i * 2) (hexAt table (buf[i]?.getD 0 >>> 4))
    hexLoop table i buf

/-- `ValueUniqueId.String` (values.go:1042-1053). -/
def uniqueIdString (random : BitVec 64) (time index : BitVec 32) : Bytes :=
  hexLoop hexLower 16 (be64 random ++ be32 time ++ be32 index ++ List.replicate 16 0#8)

/-- `generateUUID` (ref.go:83-96) for the 16 bytes read from the random source. A failure of the
random source, which panics, is not modelled. -/
def generateUUID (rand : Bytes) : Bytes :=
  let buf := rand ++ List.replicate 16 0#8
  let buf := buf.set 6 ((buf[6]?.getD 0 &&& 0x0F#8) ||| 0x40#8)
  let buf := buf.set 8 ((buf[8]?.getD 0 &&& 0x3F#8) ||| 0x80#8)
  hexLoop hexUpper 16 buf

/-- `GenerateReference` (ref.go:100-102). -/
def generateReference (rand : Bytes) : Bytes := str "RBX" ++ generateUUID rand

end Rbxfile

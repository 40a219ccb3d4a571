import Verif.Rbxl.CFrame
import Verif.Rbxl.Arrays
/-!
# Conversion of values between rbxfile and the binary format (rbxl/codec.go, rbxl/values.go)
-/
namespace Rbxl
open Go Rbxfile

/-- `typeID.ValueType` (rbxl/values.go:290-357). -/
def TypeID.valueType : TypeID → Ty
  | .string => .string | .bool => .bool | .int => .int | .float => .float | .double => .double
  | .udim => .udim | .udim2 => .udim2 | .ray => .ray | .faces => .faces | .axes => .axes
  | .brickColor => .brickColor | .color3 => .color3 | .vector2 => .vector2 | .vector3 => .vector3
  | .vector2int16 => .vector2int16 | .cframe => .cframe | .cframeQuat => .cframe
  | .token => .token | .reference => .reference | .vector3int16 => .vector3int16
  | .numberSequence => .numberSequence | .colorSequence => .colorSequence
  | .numberRange => .numberRange | .rect => .rect | .physicalProperties => .physicalProperties
  | .color3uint8 => .color3uint8 | .int64 => .int64 | .sharedString => .sharedString
  | .optional => .optional | .uniqueId => .uniqueId | .font => .font

/-- `fromValueType` (rbxl/values.go:360-431); `none` is `typeInvalid`. -/
def fromValueType : Ty → Option TypeID
  | .invalid => none
  | .string => some .string | .binaryString => some .string | .protectedString => some .string
  | .content => some .string | .bool => some .bool | .int => some .int | .float => some .float
  | .double => some .double | .udim => some .udim | .udim2 => some .udim2 | .ray => some .ray
  | .faces => some .faces | .axes => some .axes | .brickColor => some .brickColor
  | .color3 => some .color3 | .vector2 => some .vector2 | .vector3 => some .vector3
  | .vector2int16 => some .vector2int16 | .cframe => some .cframe | .token => some .token
  | .reference => some .reference | .vector3int16 => some .vector3int16
  | .numberSequence => some .numberSequence | .colorSequence => some .colorSequence
  | .numberRange => some .numberRange | .rect => some .rect
  | .physicalProperties => some .physicalProperties | .color3uint8 => some .color3uint8
  | .int64 => some .int64 | .sharedString => some .sharedString | .optional => some .optional
  | .uniqueId => some .uniqueId | .font => some .font

/-- `newValue` (rbxl/values.go:454-520); `none` is a nil value (Optional). -/
def newValue : TypeID → Option Val
  | .string => some (.string []) | .bool => some (.bool false) | .int => some (.int 0)
  | .float => some (.float 0) | .double => some (.double 0) | .udim => some (.udim 0 0)
  | .udim2 => some (.udim2 0 0 0 0) | .ray => some (.ray 0 0 0 0 0 0)
  | .faces => some (.faces false false false false false false)
  | .axes => some (.axes false false false) | .brickColor => some (.brickColor 0)
  | .color3 => some (.color3 0 0 0) | .vector2 => some (.vector2 0 0)
  | .vector3 => some (.vector3 ⟨0, 0, 0⟩) | .vector2int16 => some (.vector2int16 0 0)
  | .cframe => some (.cframe 0 Rot.zero ⟨0, 0, 0⟩)
  | .cframeQuat => some (.cframeQuat 0 0 0 0 0 ⟨0, 0, 0⟩)
  | .token => some (.token 0) | .reference => some (.reference 0)
  | .vector3int16 => some (.vector3int16 0 0 0) | .numberSequence => some (.numberSequence [])
  | .colorSequence => some (.colorSequence []) | .numberRange => some (.numberRange 0 0)
  | .rect => some (.rect 0 0 0 0) | .physicalProperties => some (.physicalProperties 0 0 0 0 0 0)
  | .color3uint8 => some (.color3uint8 0 0 0) | .int64 => some (.int64 0)
  | .sharedString => some (.sharedString 0) | .optional => none
  | .uniqueId => some (.uniqueId 0 0 0) | .font => some (.font [] 0 0 [])

/-- The `[9]float32` of the two packages is the same type. -/
def Rot.toMatrix (r : Rot) : Matrix := ⟨r.m0, r.m1, r.m2, r.m3, r.m4, r.m5, r.m6, r.m7, r.m8⟩
/-- The `[9]float32` of the two packages is the same type. -/
def rotOfMatrix (r : Matrix) : Rot := ⟨r.m0, r.m1, r.m2, r.m3, r.m4, r.m5, r.m6, r.m7, r.m8⟩

/-- The rotation of the quaternion computed by `valueCFrameQuat.ToCFrame`
(rbxl/values.go:1583-1598) in `float32` arithmetic, which is not modelled: a parameter. -/
abbrev Quat := F32 → F32 → F32 → F32 → Matrix

/-- `decodeValue` (rbxl/codec.go:206-417); `none` is a nil value. -/
def decodeValue {ρ : Type} (quat : Quat) : Val → Option (Value ρ)
  | .string s => some (.string s)
  | .bool b => some (.bool b)
  | .int n => some (.int n)
  | .float f => some (.float f)
  | .double f => some (.double f)
  | .udim s o => some (.udim ⟨s, o⟩)
  | .udim2 sx sy ox oy => some (.udim2 ⟨sx, ox⟩ ⟨sy, oy⟩)
  | .ray ox oy oz dx dy dz => some (.ray ⟨ox, oy, oz⟩ ⟨dx, dy, dz⟩)
  | .faces r t b l bo f => some (.faces r t b l bo f)
  | .axes x y z => some (.axes x y z)
  | .brickColor n => some (.brickColor n)
  | .color3 r g b => some (.color3 ⟨r, g, b⟩)
  | .vector2 x y => some (.vector2 ⟨x, y⟩)
  | .vector3 v => some (.vector3 ⟨v.x, v.y, v.z⟩)
  | .vector2int16 x y => some (.vector2int16 x y)
  | .cframe special rot pos => some (.cframe ⟨pos.x, pos.y, pos.z⟩
      (if special ≠ 0#8 then cframeSpecialMatrix special else rot.toMatrix))
  | .cframeQuat special x y z w pos => some (.cframe ⟨pos.x, pos.y, pos.z⟩
      (if special ≠ 0#8 then cframeSpecialMatrix special else quat x y z w))
  | .token n => some (.token n)
  | .reference _ => none
  | .vector3int16 x y z => some (.vector3int16 x y z)
  | .numberSequence ks => some (.numberSequence (ks.map fun k => ⟨k.time, k.value, k.envelope⟩))
  | .colorSequence ks => some (.colorSequence
      (ks.map fun k => ⟨k.time, ⟨k.r, k.g, k.b⟩, k.envelope⟩))
  | .numberRange a b => some (.numberRange a b)
  | .rect a b c d => some (.rect ⟨a, b⟩ ⟨c, d⟩)
  | .physicalProperties cp d f e fw ew => some (.physicalProperties (cp != 0#8) d f e fw ew)
  | .color3uint8 r g b => some (.color3uint8 r g b)
  | .int64 n => some (.int64 n)
  | .sharedString _ => none
  | .uniqueId r t i => some (.uniqueId r t i)
  | .font fam w st c => some (.font fam w st c)

/-- `encodeValue` (rbxl/codec.go:791-1000); `none` is a nil value. -/
def encodeValue {ρ : Type} : Value ρ → Option Val
  | .string s => some (.string s)
  | .binaryString s => some (.string s)
  | .protectedString s => some (.string s)
  | .content s => some (.string s)
  | .bool b => some (.bool b)
  | .int n => some (.int n)
  | .float f => some (.float f)
  | .double f => some (.double f)
  | .udim u => some (.udim u.scale u.offset)
  | .udim2 x y => some (.udim2 x.scale y.scale x.offset y.offset)
  | .ray o d => some (.ray o.x o.y o.z d.x d.y d.z)
  | .faces r t b l bo f => some (.faces r t b l bo f)
  | .axes x y z => some (.axes x y z)
  | .brickColor n => some (.brickColor n)
  | .color3 c => some (.color3 c.r c.g c.b)
  | .vector2 v => some (.vector2 v.x v.y)
  | .vector3 v => some (.vector3 ⟨v.x, v.y, v.z⟩)
  | .cframe pos rot =>
    match cframeSpecialNumber rot with
    | some s => some (.cframe s Rot.zero ⟨pos.x, pos.y, pos.z⟩)
    | none => some (.cframe 0 (rotOfMatrix rot) ⟨pos.x, pos.y, pos.z⟩)
  | .token n => some (.token n)
  | .reference _ => none
  | .vector3int16 x y z => some (.vector3int16 x y z)
  | .vector2int16 x y => some (.vector2int16 x y)
  | .numberSequence ks => some (.numberSequence (ks.map fun k => ⟨k.time, k.value, k.envelope⟩))
  | .colorSequence ks => some (.colorSequence
      (ks.map fun k => ⟨k.time, k.value.r, k.value.g, k.value.b, k.envelope⟩))
  | .numberRange a b => some (.numberRange a b)
  | .rect a b => some (.rect a.x a.y b.x b.y)
  | .physicalProperties cp d f e fw ew =>
    some (.physicalProperties (if cp then 1#8 else 0#8) d f e fw ew)
  | .color3uint8 r g b => some (.color3uint8 r g b)
  | .int64 n => some (.int64 n)
  | .sharedString _ => none
  | .optional _ _ => none
  | .uniqueId r t i => some (.uniqueId r t i)
  | .font fam w st c => some (.font fam w st c)

/-- `array.Get`; for Optional `arrayOptional.Get` (rbxl/arrays.go:1411-1419). -/
def Arr.get : Arr → Nat → Res (Option Val)
  | .plain _ vs, i => match vs[i]? with
    | some v => .ok (some v)
    | none => .panic
  | .optNil _, _ => .panic
  | .optional a present, i => match present[i]? with
    | none => .panic
    | some false => .ok none
    | some true => a.get i

end Rbxl

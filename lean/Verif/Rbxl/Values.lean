import Verif.Rbxl.Zigzag
/-!
# Values of the binary format (rbxl/values.go)

One constructor of `Val` per Go type implementing the `value` interface.
`Type`, `BytesLen`, `Bytes` and `FromBytes`; `Dump` is in Rbxl/Dump.lean.
-/
namespace Rbxl
open Go

/-- `typeID` restricted to the valid ids (rbxl/values.go:63-97). -/
inductive TypeID where
  | string | bool | int | float | double | udim | udim2 | ray | faces | axes | brickColor
  | color3 | vector2 | vector3 | vector2int16 | cframe | cframeQuat | token | reference
  | vector3int16 | numberSequence | colorSequence | numberRange | rect | physicalProperties
  | color3uint8 | int64 | sharedString | optional | uniqueId | font
  deriving DecidableEq, Repr, Inhabited

namespace TypeID

/-- The numeric id (rbxl/values.go:63-97). -/
def toByte : TypeID → Byte
  | string => 0x1 | bool => 0x2 | int => 0x3 | float => 0x4 | double => 0x5 | udim => 0x6
  | udim2 => 0x7 | ray => 0x8 | faces => 0x9 | axes => 0xA | brickColor => 0xB | color3 => 0xC
  | vector2 => 0xD | vector3 => 0xE | vector2int16 => 0xF | cframe => 0x10 | cframeQuat => 0x11
  | token => 0x12 | reference => 0x13 | vector3int16 => 0x14 | numberSequence => 0x15
  | colorSequence => 0x16 | numberRange => 0x17 | rect => 0x18 | physicalProperties => 0x19
  | color3uint8 => 0x1A | int64 => 0x1B | sharedString => 0x1C | optional => 0x1E
  | uniqueId => 0x1F | font => 0x20

/-- All valid type ids. -/
def all : List TypeID :=
  [string, bool, int, float, double, udim, udim2, ray, faces, axes, brickColor, color3, vector2,
   vector3, vector2int16, cframe, cframeQuat, token, reference, vector3int16, numberSequence,
   colorSequence, numberRange, rect, physicalProperties, color3uint8, int64, sharedString,
   optional, uniqueId, font]

/-- `typeID.Valid` on the raw byte (rbxl/values.go:100-102). -/
def validByte (t : Byte) : Bool := decide (1 ≤ t.toNat) && decide (t.toNat ≤ 0x20) && t != 0x1D#8

/-- The type with a given id, if it is valid: the switch of `newArray` / `newValue`
(rbxl/values.go:454-520, rbxl/arrays.go:260-329). -/
def ofByte (t : Byte) : Option TypeID := all.find? (fun k => k.toByte == t)

/-- `typeID.Size` for constant-size types; `none` stands for the negative (variable) sizes
(rbxl/values.go:109-176). -/
def size : TypeID → Option Nat
  | string => none | bool => some 1 | int => some 4 | float => some 4 | double => some 8
  | udim => some 8 | udim2 => some 16 | ray => some 24 | faces => some 1 | axes => some 1
  | brickColor => some 4 | color3 => some 12 | vector2 => some 8 | vector3 => some 12
  | vector2int16 => some 4 | cframe => none | cframeQuat => none | token => some 4
  | reference => some 4 | vector3int16 => some 6 | numberSequence => none | colorSequence => none
  | numberRange => some 8 | rect => some 16 | physicalProperties => none | color3uint8 => some 3
  | int64 => some 8 | sharedString => some 4 | optional => none | uniqueId => some 16
  | font => none

end TypeID

/-- `valueVector3` (rbxl/values.go:1278-1280). -/
structure Vec3 where
  x : F32
  y : F32
  z : F32
  deriving DecidableEq, Repr, Inhabited

/-- `[9]float32` rotation of `valueCFrame` (rbxl/values.go:1382). -/
structure Rot where
  m0 : F32
  m1 : F32
  m2 : F32
  m3 : F32
  m4 : F32
  m5 : F32
  m6 : F32
  m7 : F32
  m8 : F32
  deriving DecidableEq, Repr, Inhabited

/-- `[9]float32{}`. -/
def Rot.zero : Rot := ⟨0, 0, 0, 0, 0, 0, 0, 0, 0⟩

/-- `valueNumberSequenceKeypoint` (rbxl/values.go:1716-1718). -/
structure NSK where
  time : F32
  value : F32
  envelope : F32
  deriving DecidableEq, Repr, Inhabited

/-- `valueColorSequenceKeypoint` (rbxl/values.go:1794-1798). -/
structure CSK where
  time : F32
  r : F32
  g : F32
  b : F32
  envelope : F32
  deriving DecidableEq, Repr, Inhabited

/-- The Go types implementing `value` (rbxl/values.go:698-2334). -/
inductive Val where
  | string (s : Bytes)
  | bool (b : Bool)
  | int (n : BitVec 32)
  | float (f : F32)
  | double (f : F64)
  | udim (scale : F32) (offset : BitVec 32)
  | udim2 (scaleX scaleY : F32) (offsetX offsetY : BitVec 32)
  | ray (ox oy oz dx dy dz : F32)
  | faces (right top back left bottom front : Bool)
  | axes (x y z : Bool)
  | brickColor (n : BitVec 32)
  | color3 (r g b : F32)
  | vector2 (x y : F32)
  | vector3 (v : Vec3)
  | vector2int16 (x y : BitVec 16)
  | cframe (special : Byte) (rotation : Rot) (position : Vec3)
  | cframeQuat (special : Byte) (qx qy qz qw : F32) (position : Vec3)
  | token (n : BitVec 32)
  | reference (n : BitVec 32)
  | vector3int16 (x y z : BitVec 16)
  | numberSequence (ks : List NSK)
  | colorSequence (ks : List CSK)
  | numberRange (min max : F32)
  | rect (minX minY maxX maxY : F32)
  | physicalProperties (custom : Byte) (density friction elasticity frictionWeight elasticityWeight : F32)
  | color3uint8 (r g b : Byte)
  | int64 (n : BitVec 64)
  | sharedString (n : BitVec 32)
  | uniqueId (random : BitVec 64) (time index : BitVec 32)
  | font (family : Bytes) (weight : BitVec 16) (style : Byte) (cachedFaceId : Bytes)
  deriving DecidableEq, Repr, Inhabited

namespace Val

/-- `value.Type` (the `Type` methods in rbxl/values.go). -/
def type : Val → TypeID
  | string .. => .string | bool .. => .bool | int .. => .int | float .. => .float
  | double .. => .double | udim .. => .udim | udim2 .. => .udim2 | ray .. => .ray
  | faces .. => .faces | axes .. => .axes | brickColor .. => .brickColor | color3 .. => .color3
  | vector2 .. => .vector2 | vector3 .. => .vector3 | vector2int16 .. => .vector2int16
  | cframe .. => .cframe | cframeQuat .. => .cframeQuat | token .. => .token
  | reference .. => .reference | vector3int16 .. => .vector3int16
  | numberSequence .. => .numberSequence | colorSequence .. => .colorSequence
  | numberRange .. => .numberRange | rect .. => .rect
  | physicalProperties .. => .physicalProperties | color3uint8 .. => .color3uint8
  | int64 .. => .int64 | sharedString .. => .sharedString | uniqueId .. => .uniqueId
  | font .. => .font

end Val

/-! ## Encoding -/

/-- `appendFlags` (rbxl/values.go:639-647): bit `i` of the byte is flag `i`. -/
def flagsByte (flags : List Bool) : Byte :=
  (flags.zipIdx).foldl (fun a (fi : Bool × Nat) => if fi.1 then a ||| (1#8 <<< fi.2) else a) 0#8

/-- `readFlags` for one flag (rbxl/values.go:649-653). -/
def readFlag (b : Byte) (i : Nat) : Bool := (b &&& (1#8 <<< i)) != 0#8

/-- `uint32(len(v))`. -/
def len32 {α : Type _} (l : List α) : BitVec 32 := BitVec.ofNat 32 l.length

/-- `valueString.Bytes` (rbxl/values.go:710-714). -/
def stringBytes (s : Bytes) : Bytes := le32 (len32 s) ++ s
/-- `valueInt.Bytes` (rbxl/values.go:781-783). -/
def intBytes (n : BitVec 32) : Bytes := be32 (encodeZigzag32 n)
/-- `valueFloat.Bytes` (rbxl/values.go:811-813). -/
def floatBytes (f : F32) : Bytes := be32 (encodeRobloxFloat f)
/-- `valueVector3.Bytes` (rbxl/values.go:1290-1295). -/
def Vec3.bytes (v : Vec3) : Bytes := floatBytes v.x ++ (floatBytes v.y ++ floatBytes v.z)
/-- The rotation loop of `valueCFrame.Bytes` (rbxl/values.go:1397-1399). -/
def Rot.bytes (r : Rot) : Bytes :=
  le32 r.m0 ++ (le32 r.m1 ++ (le32 r.m2 ++ (le32 r.m3 ++ (le32 r.m4 ++ (le32 r.m5 ++ (le32 r.m6 ++
    (le32 r.m7 ++ le32 r.m8)))))))
/-- `valueInt64.Bytes` (rbxl/values.go:2132-2134). -/
def int64Bytes (n : BitVec 64) : Bytes := be64 (encodeZigzag64 n)
/-- One keypoint of `valueNumberSequence.Bytes` (rbxl/values.go:1754-1756). -/
def NSK.bytes (k : NSK) : Bytes := le32 k.time ++ (le32 k.value ++ le32 k.envelope)
/-- One keypoint of `valueColorSequence.Bytes` (rbxl/values.go:1834-1838). -/
def CSK.bytes (k : CSK) : Bytes :=
  le32 k.time ++ (le32 k.r ++ (le32 k.g ++ (le32 k.b ++ le32 k.envelope)))
/-- `valueCFrameQuat.quatBytes` (rbxl/values.go:1509-1515). -/
def quatBytes (qx qy qz qw : F32) : Bytes := le32 qx ++ (le32 qy ++ (le32 qz ++ le32 qw))

namespace Val

/-- `value.Bytes` (appended part), one case per Go method; lines are those of rbxl/values.go. -/
def bytes : Val → Bytes
  | string s => stringBytes s                                                        -- 710
  | bool b => if b then [1] else [0]                                                 -- 743
  | int n => intBytes n                                                              -- 781
  | float f => floatBytes f                                                          -- 811
  | double f => le64 f                                                               -- 841
  | udim s o => floatBytes s ++ intBytes o                                           -- 874
  | udim2 sx sy ox oy => floatBytes sx ++ (floatBytes sy ++ (intBytes ox ++ intBytes oy)) -- 923
  | ray ox oy oz dx dy dz =>
      le32 ox ++ (le32 oy ++ (le32 oz ++ (le32 dx ++ (le32 dy ++ le32 dz))))         -- 986
  | faces r t b l bo f => [flagsByte [r, t, b, l, bo, f]]                            -- 1056
  | axes x y z => [flagsByte [x, y, z]]                                              -- 1115
  | brickColor n => be32 n                                                           -- 1160
  | color3 r g b => floatBytes r ++ (floatBytes g ++ floatBytes b)                   -- 1192
  | vector2 x y => floatBytes x ++ floatBytes y                                      -- 1244
  | vector3 v => v.bytes                                                             -- 1290
  | vector2int16 x y => le16 x ++ le16 y                                             -- 1342
  | cframe sp r p => sp :: ((if sp = 0#8 then r.bytes else []) ++ p.bytes)             -- 1394
  | cframeQuat sp qx qy qz qw p =>
      sp :: ((if sp = 0#8 then quatBytes qx qy qz qw else []) ++ p.bytes)              -- 1517
  | token n => be32 n                                                                -- 1614
  | reference n => be32 (encodeZigzag32 n)                                           -- 1644
  | vector3int16 x y z => le16 x ++ (le16 y ++ le16 z)                               -- 1676
  | numberSequence ks => le32 (len32 ks) ++ ks.flatMap NSK.bytes                     -- 1751
  | colorSequence ks => le32 (len32 ks) ++ ks.flatMap CSK.bytes                      -- 1831
  | numberRange a b => le32 a ++ le32 b                                              -- 1892
  | rect a b c d => (floatBytes a ++ floatBytes b) ++ (floatBytes c ++ floatBytes d) -- 1938
  | physicalProperties cp d f e fw ew =>
      cp :: (if cp ≠ 0#8 then le32 d ++ (le32 f ++ (le32 e ++ (le32 fw ++ le32 ew))) else []) -- 2002
  | color3uint8 r g b => [r, g, b]                                                   -- 2085
  | int64 n => int64Bytes n                                                          -- 2132
  | sharedString n => be32 n                                                         -- 2162
  | uniqueId r t i => be32 i ++ (be32 t ++ int64Bytes r)                             -- 2200
  | font fam w st c => stringBytes fam ++ (le16 w ++ (st :: stringBytes c))          -- 2265

/-- `value.BytesLen`, one case per Go method of rbxl/values.go. -/
def bytesLen : Val → Nat
  | string s => 4 + s.length
  | bool _ => 1 | int _ => 4 | float _ => 4 | double _ => 8 | udim .. => 8 | udim2 .. => 16
  | ray .. => 24 | faces .. => 1 | axes .. => 1 | brickColor _ => 4 | color3 .. => 12
  | vector2 .. => 8 | vector3 _ => 12 | vector2int16 .. => 4
  | cframe sp _ _ => if sp = 0#8 then 1 + 36 + 12 else 1 + 12
  | cframeQuat sp .. => if sp = 0#8 then 1 + 16 + 12 else 1 + 12
  | token _ => 4 | reference _ => 4 | vector3int16 .. => 6
  | numberSequence ks => 4 + 12 * ks.length
  | colorSequence ks => 4 + 20 * ks.length
  | numberRange .. => 8 | rect .. => 16
  | physicalProperties cp .. => if cp = 0#8 then 1 else 1 + 20
  | color3uint8 .. => 3 | int64 _ => 8 | sharedString _ => 4 | uniqueId .. => 16
  | font fam _ _ c => (4 + fam.length) + 2 + 1 + (4 + c.length)

end Val

/-! ## Decoding -/

/-- Reading from a buffer variable `b` that is advanced in place. -/
abbrev Rd := StateT Bytes Res

/-- `readUint16(&b, le)` (rbxl/values.go:664-668). -/
def rdLe16 : Rd (BitVec 16) := readLe16
/-- `readUint32(&b, le)` (rbxl/values.go:672-676). -/
def rdLe32 : Rd (BitVec 32) := readLe32
/-- `readUint32(&b, be)` (rbxl/values.go:672-676). -/
def rdBe32 : Rd (BitVec 32) := readBe32
/-- `binary.LittleEndian.Uint64(b)`. -/
def rdLe64 : Rd (BitVec 64) := readLe64
/-- `binary.BigEndian.Uint64(b)`. -/
def rdBe64 : Rd (BitVec 64) := readBe64
/-- `readUint8(&b)` (rbxl/values.go:656-660). -/
def rdU8 : Rd Byte := readU8

/-- A `FromBytes` method of a constant-size type: `checkLengthConst` (rbxl/values.go:567-575),
then the reads, then `return n, nil`. -/
def constFrom {α : Type} (n : Nat) (rd : Rd α) (b : Bytes) : Res (α × Nat) :=
  if b.length < n then .err (.buflen n b.length)
  else do
    let (v, _) ← rd b
    pure (v, n)

/-- `fromBytes(b, &v)` (rbxl/values.go:688-694): panics when `FromBytes` fails. -/
def fromBytesP {α : Type} (f : Bytes → Res (α × Nat)) : Rd α := fun b =>
  match f b with
  | .ok (v, n) => if n ≤ b.length then .ok (v, b.drop n) else .panic
  | _ => .panic

/-- `checkLengthArray` (rbxl/values.go:585-594); `uint64` arithmetic cannot overflow because
`fieldSize ≤ 20` and the length is below 2^32. -/
def checkLengthArray (fieldSize : Nat) (b : Bytes) : Res (Bytes × Nat) :=
  if b.length < 4 then .err (.buflen 4 b.length)
  else do
    let (length, r) ← readLe32 b
    let n := 4 + fieldSize * length.toNat
    if b.length < n then .err (.buflen n b.length) else pure (r, length.toNat)

/-- `checkLengthCond` (rbxl/values.go:600-609) with `condSize` the type's `CondSize`. -/
def checkLengthCond (condSize : Byte → Nat) : Bytes → Res (Byte × Bytes × Nat)
  | [] => .err (.buflen 1 0)
  | cond :: r =>
    let n := condSize cond
    if r.length + 1 < n then .err (.buflen n (r.length + 1)) else .ok (cond, r, n)

/-- `CondSize` of CFrame (rbxl/values.go:199-203). -/
def condSizeCFrame (b : Byte) : Nat := if b = 0#8 then 1 + 36 + 12 else 1 + 12
/-- `CondSize` of CFrameQuat (rbxl/values.go:204-208). -/
def condSizeCFrameQuat (b : Byte) : Nat := if b = 0#8 then 1 + 16 + 12 else 1 + 12
/-- `CondSize` of PhysicalProperties (rbxl/values.go:209-213). -/
def condSizePhys (b : Byte) : Nat := if b = 0#8 then 1 else 1 + 20

/-- `valueString.FromBytes` (rbxl/values.go:716-723). `copy` copies at most `n` bytes. -/
def stringFrom (b : Bytes) : Res (Bytes × Nat) := do
  let (r, n) ← checkLengthArray 1 b
  let v := r.take n
  pure (v, 4 + v.length)

/-- `valueInt.FromBytes` (rbxl/values.go:785-791). -/
def intFrom : Bytes → Res (BitVec 32 × Nat) :=
  constFrom 4 (do let n ← rdBe32; pure (decodeZigzag32 n))
/-- `valueFloat.FromBytes` (rbxl/values.go:815-821). -/
def floatFrom : Bytes → Res (F32 × Nat) :=
  constFrom 4 (do let n ← rdBe32; pure (decodeRobloxFloat n))
/-- `valueInt64.FromBytes` (rbxl/values.go:2136-2142). -/
def int64From : Bytes → Res (BitVec 64 × Nat) :=
  constFrom 8 (do let n ← rdBe64; pure (decodeZigzag64 n))
/-- `valueVector2.FromBytes` (rbxl/values.go:1250-1257). -/
def vec2From : Bytes → Res ((F32 × F32) × Nat) :=
  constFrom 8 (do let x ← fromBytesP floatFrom; let y ← fromBytesP floatFrom; pure (x, y))
/-- `valueVector3.FromBytes` (rbxl/values.go:1297-1305). -/
def vec3From : Bytes → Res (Vec3 × Nat) :=
  constFrom 12 (do
    let x ← fromBytesP floatFrom
    let y ← fromBytesP floatFrom
    let z ← fromBytesP floatFrom
    pure ⟨x, y, z⟩)

/-- The rotation loop of `valueCFrame.FromBytes` (rbxl/values.go:1412-1414). -/
def rdRot : Rd Rot := do
  let m0 ← rdLe32
  let m1 ← rdLe32
  let m2 ← rdLe32
  let m3 ← rdLe32
  let m4 ← rdLe32
  let m5 ← rdLe32
  let m6 ← rdLe32
  let m7 ← rdLe32
  let m8 ← rdLe32
  pure ⟨m0, m1, m2, m3, m4, m5, m6, m7, m8⟩

/-- `valueCFrameQuat.quatFromBytes` (rbxl/values.go:1526-1532). -/
def rdQuat : Rd (F32 × F32 × F32 × F32) := do
  let x ← rdLe32
  let y ← rdLe32
  let z ← rdLe32
  let w ← rdLe32
  pure (x, y, z, w)

/-- `v.Position.FromBytes(b)` with the results discarded (rbxl/values.go:1420, 1548): on error
the position keeps its zero value. -/
def positionFrom (b : Bytes) : Res Vec3 :=
  match vec3From b with
  | .ok (p, _) => .ok p
  | .err _ => .ok ⟨0, 0, 0⟩
  | .panic => .panic

/-- `valueCFrame.FromBytes` (rbxl/values.go:1405-1422). -/
def cframeFrom (b : Bytes) : Res (Val × Nat) := do
  let (cond, b, n) ← checkLengthCond condSizeCFrame b
  if cond = 0#8 then
    let (rot, b) ← rdRot b
    let p ← positionFrom b
    pure (.cframe cond rot p, n)
  else
    let p ← positionFrom b
    pure (.cframe cond Rot.zero p, n)

/-- `valueCFrameQuat.FromBytes` (rbxl/values.go:1534-1550). -/
def cframeQuatFrom (b : Bytes) : Res (Val × Nat) := do
  let (cond, b, n) ← checkLengthCond condSizeCFrameQuat b
  if cond = 0#8 then
    let ((x, y, z, w), b) ← rdQuat b
    let p ← positionFrom b
    pure (.cframeQuat cond x y z w p, n)
  else
    let p ← positionFrom b
    pure (.cframeQuat cond 0 0 0 0 p, n)

/-- One keypoint of `valueNumberSequence.FromBytes` (rbxl/values.go:1767-1771). -/
def rdNSK : Rd NSK := do
  let t ← rdLe32
  let v ← rdLe32
  let e ← rdLe32
  pure ⟨t, v, e⟩

/-- One keypoint of `valueColorSequence.FromBytes` (rbxl/values.go:1849-1857). -/
def rdCSK : Rd CSK := do
  let t ← rdLe32
  let r ← rdLe32
  let g ← rdLe32
  let b ← rdLe32
  let e ← rdLe32
  pure ⟨t, r, g, b, e⟩

/-- `for i := 0; i < n; i++ { a[i] = ... }` over the advancing buffer. -/
def rdMany {α : Type} (rd : Rd α) : Nat → Rd (List α)
  | 0 => pure []
  | n + 1 => do
    let x ← rd
    let xs ← rdMany rd n
    pure (x :: xs)

/-- `valueNumberSequence.FromBytes` (rbxl/values.go:1761-1775). -/
def numberSequenceFrom (b : Bytes) : Res (Val × Nat) := do
  let (b, n) ← checkLengthArray 12 b
  let (ks, _) ← rdMany rdNSK n b
  pure (.numberSequence ks, 4 + 12 * ks.length)

/-- `valueColorSequence.FromBytes` (rbxl/values.go:1843-1861). -/
def colorSequenceFrom (b : Bytes) : Res (Val × Nat) := do
  let (b, n) ← checkLengthArray 20 b
  let (ks, _) ← rdMany rdCSK n b
  pure (.colorSequence ks, 4 + 20 * ks.length)

/-- `valuePhysicalProperties.FromBytes` (rbxl/values.go:2019-2035). -/
def physFrom (b : Bytes) : Res (Val × Nat) := do
  let (cond, b, n) ← checkLengthCond condSizePhys b
  if cond ≠ 0#8 then
    let ((d, f, e, fw, ew), _) ← (do
      let d ← rdLe32
      let f ← rdLe32
      let e ← rdLe32
      let fw ← rdLe32
      let ew ← rdLe32
      pure (d, f, e, fw, ew) : Rd (F32 × F32 × F32 × F32 × F32)) b
    pure (.physicalProperties cond d f e fw ew, n)
  else pure (.physicalProperties cond 0 0 0 0 0, n)

/-- `valueFont.FromBytes` (rbxl/values.go:2273-2305). -/
def fontFrom (b : Bytes) : Res (Val × Nat) := do
  let l := b.length
  let (family, nn) ← stringFrom b
  let b := b.drop nn
  if b.length < 2 then .err (.buflen (nn + 2) l)
  else
    let (weight, b) ← readLe16 b
    if b.length < 1 then .err (.buflen (nn + 2 + 1) l)
    else
      let (style, b) ← readU8 b
      let (cached, nn') ← stringFrom b
      pure (.font family weight style cached, nn + 2 + 1 + nn')

/-- `newValue(t)` followed by `FromBytes(b)`: the decoded value and the number of bytes read.
Optional has no `value` implementation (`newValue` returns nil, rbxl/values.go:512-513), so calling
`FromBytes` on it is a nil dereference. -/
def Val.fromBytes (t : TypeID) (b : Bytes) : Res (Val × Nat) :=
  match t with
  | .string => do let (s, n) ← stringFrom b; pure (.string s, n)
  | .bool => constFrom 1 (do let c ← rdU8; pure (.bool (c != 0#8))) b                 -- 751
  | .int => do let (v, n) ← intFrom b; pure (.int v, n)
  | .float => do let (v, n) ← floatFrom b; pure (.float v, n)
  | .double => constFrom 8 (do let v ← rdLe64; pure (.double v)) b                    -- 845
  | .udim => constFrom 8 (do
      let s ← fromBytesP floatFrom
      let o ← fromBytesP intFrom
      pure (.udim s o)) b                                                             -- 880
  | .udim2 => constFrom 16 (do
      let sx ← fromBytesP floatFrom
      let sy ← fromBytesP floatFrom
      let ox ← fromBytesP intFrom
      let oy ← fromBytesP intFrom
      pure (.udim2 sx sy ox oy)) b                                                    -- 931
  | .ray => constFrom 24 (do
      let ox ← rdLe32
      let oy ← rdLe32
      let oz ← rdLe32
      let dx ← rdLe32
      let dy ← rdLe32
      let dz ← rdLe32
      pure (.ray ox oy oz dx dy dz)) b                                                -- 996
  | .faces => constFrom 1 (do
      let c ← rdU8
      pure (.faces (readFlag c 0) (readFlag c 1) (readFlag c 2) (readFlag c 3) (readFlag c 4)
        (readFlag c 5))) b                                                            -- 1060
  | .axes => constFrom 1 (do
      let c ← rdU8
      pure (.axes (readFlag c 0) (readFlag c 1) (readFlag c 2))) b                    -- 1119
  | .brickColor => constFrom 4 (do let v ← rdBe32; pure (.brickColor v)) b            -- 1164
  | .color3 => constFrom 12 (do
      let r ← fromBytesP floatFrom
      let g ← fromBytesP floatFrom
      let b ← fromBytesP floatFrom
      pure (.color3 r g b)) b                                                         -- 1199
  | .vector2 => do let ((x, y), n) ← vec2From b; pure (.vector2 x y, n)
  | .vector3 => do let (v, n) ← vec3From b; pure (.vector3 v, n)
  | .vector2int16 => constFrom 4 (do
      let x ← rdLe16
      let y ← rdLe16
      pure (.vector2int16 x y)) b                                                     -- 1348
  | .cframe => cframeFrom b
  | .cframeQuat => cframeQuatFrom b
  | .token => constFrom 4 (do let v ← rdBe32; pure (.token v)) b                      -- 1618
  | .reference => constFrom 4 (do let v ← rdBe32; pure (.reference (decodeZigzag32 v))) b -- 1648
  | .vector3int16 => constFrom 6 (do
      let x ← rdLe16
      let y ← rdLe16
      let z ← rdLe16
      pure (.vector3int16 x y z)) b                                                   -- 1683
  | .numberSequence => numberSequenceFrom b
  | .colorSequence => colorSequenceFrom b
  | .numberRange => constFrom 8 (do
      let x ← rdLe32
      let y ← rdLe32
      pure (.numberRange x y)) b                                                      -- 1898
  | .rect => constFrom 16 (do
      let (a, b) ← fromBytesP vec2From
      let (c, d) ← fromBytesP vec2From
      pure (.rect a b c d)) b                                                         -- 1944
  | .physicalProperties => physFrom b
  | .color3uint8 => constFrom 3 (do
      let r ← rdU8
      let g ← rdU8
      let b ← rdU8
      pure (.color3uint8 r g b)) b                                                    -- 2089
  | .int64 => do let (v, n) ← int64From b; pure (.int64 v, n)
  | .sharedString => constFrom 4 (do let v ← rdBe32; pure (.sharedString v)) b        -- 2166
  | .optional => .panic
  | .uniqueId => constFrom 16 (do
      let i ← rdBe32
      let t ← rdBe32
      let r ← fromBytesP int64From
      pure (.uniqueId r t i)) b                                                       -- 2207
  | .font => fontFrom b

end Rbxl

import Verif.Rbxl.Model
import Verif.Spec.Rotation
import Verif.Rbxfile.Values
import Mathlib.Data.List.Forall2
/-!
# Specification vocabulary: the bytes of the binary format

The format byte by byte, as an independent reader or writer has to know it: numbers are given by arithmetic, constants
literally. Of the model only the types of values, arrays and chunks are used.
-/
namespace Spec.Wire
open Go Rbxfile Rbxl

/-! ## Numbers -/

/-- A number in `k` bytes, the least significant byte first; what does not fit is lost. -/
def little : Nat → Nat → Bytes
  | 0, _ => []
  | k + 1, n => BitVec.ofNat 8 n :: little k (n / 256)
/-- A number in `k` bytes, the most significant byte first. -/
def big (k n : Nat) : Bytes := (little k n).reverse

/-- Signed numbers as natural numbers: 0, -1, 1, -2, 2, ... become 0, 1, 2, 3, 4, ... -/
def zigzag (n : Int) : Nat := if 0 ≤ n then (2 * n).toNat else (-2 * n - 1).toNat
/-- The bits of a float with the sign moved to the end. -/
def signLast (f : F32) : Nat := f.toNat % 2 ^ 31 * 2 + f.toNat / 2 ^ 31
/-- Flags as the bits of a number, the first flag being the lowest. -/
def bits : List Bool → Nat
  | [] => 0
  | b :: bs => (if b then 1 else 0) + 2 * bits bs

/-- A float as the bits say, the least significant byte first. -/
def plainFloat (f : F32) : Bytes := little 4 f.toNat
/-- A float with the sign last, the most significant byte first. -/
def float (f : F32) : Bytes := big 4 (signLast f)
/-- A signed number of four bytes. -/
def int (n : BitVec 32) : Bytes := big 4 (zigzag n.toInt)
/-- A string after its length. -/
def text (s : Bytes) : Bytes := little 4 s.length ++ s
/-- A byte that is 1 or 0. -/
def flag (b : Bool) : Byte := if b then 1 else 0

/-! ## Values -/

/-- The rotation of a CFrame: the id of the rotation, and the nine numbers if the id is 0. -/
def rotation (id : Byte) (r : Rot) : Bytes :=
  id :: if id = 0 then [r.m0, r.m1, r.m2, r.m3, r.m4, r.m5, r.m6, r.m7, r.m8].flatMap plainFloat else []
/-- The rotation of a CFrame given by a quaternion: the id, and the four numbers if the id is 0. -/
def quaternion (id : Byte) (x y z w : F32) : Bytes := id :: if id = 0 then [x, y, z, w].flatMap plainFloat else []
/-- A position. -/
def position (p : Vec3) : Bytes := [p.x, p.y, p.z].flatMap float

/-- The bytes of a value. -/
def value : Val → Bytes
  | .string s => text s
  | .bool b => [flag b]
  | .int n => int n
  | .float f => float f
  | .double f => little 8 f.toNat
  | .udim scale offset => float scale ++ int offset
  | .udim2 sx sy ox oy => float sx ++ float sy ++ int ox ++ int oy
  | .ray ox oy oz dx dy dz => [ox, oy, oz, dx, dy, dz].flatMap plainFloat
  | .faces right top back left bottom front => little 1 (bits [right, top, back, left, bottom, front])
  | .axes x y z => little 1 (bits [x, y, z])
  | .brickColor n => big 4 n.toNat
  | .color3 r g b => [r, g, b].flatMap float
  | .vector2 x y => [x, y].flatMap float
  | .vector3 p => position p
  | .vector2int16 x y => little 2 x.toNat ++ little 2 y.toNat
  | .cframe id r p => rotation id r ++ position p
  | .cframeQuat id x y z w p => quaternion id x y z w ++ position p
  | .token n => big 4 n.toNat
  | .reference n => int n
  | .vector3int16 x y z => little 2 x.toNat ++ little 2 y.toNat ++ little 2 z.toNat
  | .numberSequence ks => little 4 ks.length ++ ks.flatMap fun k => [k.time, k.value, k.envelope].flatMap plainFloat
  | .colorSequence ks => little 4 ks.length ++ ks.flatMap fun k => [k.time, k.r, k.g, k.b, k.envelope].flatMap plainFloat
  | .numberRange min max => plainFloat min ++ plainFloat max
  | .rect minX minY maxX maxY => [minX, minY, maxX, maxY].flatMap float
  | .physicalProperties custom d f e fw ew => custom :: if custom = 0 then [] else [d, f, e, fw, ew].flatMap plainFloat
  | .color3uint8 r g b => [r, g, b]
  | .int64 n => big 8 (zigzag n.toInt)
  | .sharedString n => big 4 n.toNat
  | .uniqueId random time index => big 4 index.toNat ++ big 4 time.toNat ++ big 8 (zigzag random.toInt)
  | .font family weight style cached => text family ++ little 2 weight.toNat ++ [style] ++ text cached

/-! ## Arrays -/

/-- The number of a type. -/
def typeByte : TypeID → Byte
  | .string => 1 | .bool => 2 | .int => 3 | .float => 4 | .double => 5 | .udim => 6 | .udim2 => 7 | .ray => 8 | .faces => 9
  | .axes => 10 | .brickColor => 11 | .color3 => 12 | .vector2 => 13 | .vector3 => 14 | .vector2int16 => 15 | .cframe => 16
  | .cframeQuat => 17 | .token => 18 | .reference => 19 | .vector3int16 => 20 | .numberSequence => 21 | .colorSequence => 22
  | .numberRange => 23 | .rect => 24 | .physicalProperties => 25 | .color3uint8 => 26 | .int64 => 27 | .sharedString => 28
  | .optional => 30 | .uniqueId => 31 | .font => 32

/-- The types of which the first bytes of all elements are written first, then the second bytes, and so on. -/
def byColumn : List TypeID := [.int, .float, .udim, .udim2, .brickColor, .color3, .vector2, .vector3, .token, .reference, .rect,
  .color3uint8, .int64, .sharedString, .uniqueId]

/-- The first bytes of rows of `k` bytes, then the second bytes, and so on. -/
def columns (k : Nat) (rows : List Bytes) : Bytes := (List.range k).flatMap fun j => rows.filterMap fun r => r[j]?

/-- The differences of numbers to the number before (0 for the first). -/
def differences : BitVec 32 → List (BitVec 32) → List (BitVec 32)
  | _, [] => []
  | prev, x :: xs => (x - prev) :: differences x xs
/-- An array of ids of instances. -/
def references (ids : List (BitVec 32)) : Bytes := columns 4 ((differences 0 ids).map int)

/-- The number of an instance in a value. -/
def number : Val → BitVec 32
  | .reference n => n
  | _ => 0
/-- The rotation in a value. -/
def rotationOf : Val → Bytes
  | .cframe id r _ => rotation id r
  | .cframeQuat id x y z w _ => quaternion id x y z w
  | _ => []
/-- The position in a value. -/
def positionOf : Val → Bytes
  | .cframe _ _ p => position p
  | .cframeQuat _ _ _ _ _ p => position p
  | _ => []

/-- The values of an array: of CFrames, the rotations and then the positions by columns; of references, the differences. -/
def elements (t : TypeID) (vs : List Val) : Bytes :=
  if t = .cframe ∨ t = .cframeQuat then vs.flatMap rotationOf ++ columns 12 (vs.map positionOf)
  else if t = .reference then references (vs.map number)
  else if t ∈ byColumn then columns (value (vs.headD (.bool false))).length (vs.map value)
  else vs.flatMap value

/-- The values of an array of a PROP chunk; those of optional values are followed by flags. -/
def array : Arr → Bytes
  | .plain t vs => elements t vs
  | .optNil _ => []
  | .optional a present => typeByte a.type :: (array a ++ typeByte .bool :: present.map flag)

/-- The elements have the type of the array. -/
def Typed : Arr → Prop
  | .plain t vs => ∀ v ∈ vs, v.type = t
  | .optNil _ => True
  | .optional a _ => Typed a

/-! ## Chunks -/

/-- The four bytes that say what a chunk is. -/
def signature : Body → Bytes
  | .inst _ => str "INST"
  | .prop _ => str "PROP"
  | .parent _ => str "PRNT"
  | .metadata _ => str "META"
  | .shared _ => str "SSTR"
  | .end_ _ => str "END" ++ [0]
  | .unknown s _ => little 4 s.toNat
  | .errored s _ => little 4 s.toNat

/-- The content of a chunk. -/
def content : Body → Bytes
  | .inst c => little 4 c.classID.toNat ++ text c.className ++ [flag c.isService] ++ little 4 c.ids.length ++ references c.ids ++
      (if c.isService then c.getService else [])
  | .prop c => little 4 c.classID.toNat ++ text c.name ++
      match c.props with
      | none => []
      | some a => typeByte a.type :: array a
  | .parent c => [c.version] ++ little 4 c.children.length ++ references c.children ++ references c.parents
  | .metadata vs => little 4 vs.length ++ vs.flatMap fun x => text x.1 ++ text x.2
  | .shared c => little 4 c.version.toNat ++ little 4 c.values.length ++ c.values.flatMap fun x => x.1 ++ text x.2
  | .end_ b => b
  | .unknown _ b => b
  | .errored _ b => b

/-- A chunk: its signature, the length of the compressed content, the length of the content, a zero, and the content,
compressed or, if that length is given as zero, as it is. -/
def Frame (lz : LZ4) (compressed : Bool) (b : Body) (out : Bytes) : Prop :=
  if compressed then ∃ data, lz.enc (content b) = .ok data ∧
    out = signature b ++ little 4 data.length ++ little 4 (content b).length ++ little 4 0 ++ data
  else out = signature b ++ little 4 0 ++ little 4 (content b).length ++ little 4 0 ++ content b

/-- A file: the header, the chunks, and what follows them. If `u`, the chunks are not compressed. -/
def File (lz : LZ4) (u : Bool) (m : FormatModel) (out : Bytes) : Prop :=
  ∃ frames, List.Forall₂ (fun c b => Frame lz (c.compressed && !u) c.body b) m.chunks frames ∧
    out = str "<roblox!" ++ [0x89, 0xFF, 0x0D, 0x0A, 0x1A, 0x0A] ++ little 2 m.version.toNat ++ little 4 m.classCount.toNat ++
      little 4 m.instanceCount.toNat ++ little 8 0 ++ frames.flatten ++ m.trailing

end Spec.Wire

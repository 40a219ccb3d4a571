import Verif.Spec.DecodeBinary
import Verif.Rbxl.CodecLemmas
/-!
# Specification vocabulary: the binary files on which the decoder panics or fails
-/
namespace Spec
open Go Rbxfile Rbxl

/-- An array of CFrames starts with `n` rotations; this is what follows them. A rotation is a byte, and `big` more bytes if that
byte is zero. At every rotation there must be 12 bytes left for a position; otherwise the array cannot be read (`none`). -/
def afterRotations (big : Nat) : Nat → Bytes → Option Bytes
  | 0, b => some b
  | _ + 1, [] => none
  | n + 1, c :: r =>
    if c = 0#8 then (if big + 12 ≤ r.length then afterRotations big n (r.drop big) else none)
    else (if 12 ≤ r.length then afterRotations big n r else none)

/-- The array, which may be an array of Optionals, is one of `n` CFrames with rotations that can be read, but fewer than the
`12 n` bytes of the positions, even with the spare capacity of the buffer. -/
def CutPositions (slack n : Nat) : Bytes → Prop
  | [] => False
  | tb :: rest =>
    if tb = 0x1E#8 then CutPositions slack n rest
    else if tb = 0x10#8 then ∃ r, afterRotations 36 n rest = some r ∧ r.length + slack < 12 * n
    else if tb = 0x11#8 then ∃ r, afterRotations 16 n rest = some r ∧ r.length + slack < 12 * n
    else False

/-- An array of Optionals in which an element that is present holds a reference, a shared string, or an Optional that is absent. -/
def BadOptional : Arr → Prop
  | .optional values present => ∃ i, present[i]? = some true ∧
      (values.get i = .ok none ∨ ∃ x, values.get i = .ok (some x) ∧ (x.type = .reference ∨ x.type = .sharedString))
  | _ => False

/-- A number between 0 and `n`, exclusive. -/
def Within (x : BitVec 32) (n : BitVec 32) : Prop := 0 ≤ x.toInt ∧ x.toInt < n.toNat

/-- The demands on the chunk `c` of a file with the header counts `classes` and `instances`, between the chunks `pre` and
`post`. -/
def Accepts (classes instances : BitVec 32) (pre : List Chunk) (c : Chunk) (post : List Chunk) : Prop :=
  match c.body with
  | .inst g => Within g.classID classes ∧ (g.isService = true → g.getService.length = g.ids.length) ∧
      g.ids.Nodup ∧ (∀ id ∈ g.ids, Within id instances ∧ id ∉ declared pre) ∧
      ∀ c' ∈ post, ∀ g', c'.body = .inst g' → g'.classID ≠ g.classID
  | .prop p => Within p.classID classes ∧ ∀ a, p.props = some a → ¬ BadOptional a
  | .parent p => p.version = 0#8 ∧ p.parents.length = p.children.length ∧ ∀ id ∈ p.children, Within id instances
  | _ => True

/-- The decoder reaches the chunk `c`: it accepts all chunks before. -/
def ReachesChunk (f : FormatModel) (pre : List Chunk) (c : Chunk) (post : List Chunk) : Prop :=
  beforeEnd f.chunks = pre ++ c :: post ∧
  ∀ pre' c' post', pre = pre' ++ c' :: post' → Accepts f.classCount f.instanceCount pre' c' (post' ++ c :: post)

/-- The class with the given id, according to the INST chunks among frames: the last one counts. -/
def classIn (raws : List Raw) (id : BitVec 32) : Option InstChunk :=
  (raws.filterMap fun raw => if raw.sig = sigINST then
      match decodeInst raw.payload with
      | .ok (c, _) => if c.classID = id then some c else none
      | _ => none
    else none).getLast?

/-- `ReadsFrames lz b raws b'`: the frames `raws` can be read from `b`, none is an END chunk, and `b'` follows them. -/
inductive ReadsFrames (lz : LZ4) : Bytes → List Raw → Bytes → Prop
  | nil {b} : ReadsFrames lz b [] b
  | snoc {b raws raw b' b''} : ReadsFrames lz b raws b' → rawDecode lz b' = .ok (raw, b'') → raw.sig ≠ sigEND →
      ReadsFrames lz b (raws ++ [raw]) b''

/-- The 16 bytes of a frame header are there, and its compressed length is one of the four greatest numbers of 32 bits. -/
def HugeFrame (b : Bytes) : Prop :=
  ∃ sig len size res r, b = le32 sig ++ (le32 len ++ (le32 size ++ (le32 res ++ r))) ∧ 2 ^ 32 - 4 ≤ len.toNat

/-- The frame is a PROP chunk of a class that earlier frames declare, and the positions of its CFrames are cut off. -/
def CutFrame (slack : Bytes → Nat) (raws : List Raw) (raw : Raw) : Prop :=
  raw.sig = sigPROP ∧ ∃ id len name array g, raw.payload = le32 id ++ (le32 len ++ (name ++ array)) ∧ name.length = len.toNat ∧
    classIn raws id = some g ∧ CutPositions (slack array) g.ids.length array

end Spec

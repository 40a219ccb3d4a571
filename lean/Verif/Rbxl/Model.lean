import Verif.Go.Map
import Verif.Rbxl.Arrays
/-!
# Chunks and framing of the binary format (rbxl/model.go, rbxl/decoder.go, rbxl/encoder.go)

`parse.BinaryReader` / `parse.BinaryWriter` (github.com/anaminus/parse) are modelled as a reader
over a byte list (little-endian numbers, full reads, an error when bytes are missing) and as
concatenation.  For the underlying `io.Reader` and its errors see Verif.Rbxl.ReadFrom, for the
`io.Writer` see Verif.Rbxl.WriteTo.
-/
namespace Rbxl
open Go

/-! ## Reader primitives -/

/-- `fr.Bytes(p)` with `len(p) = n`. -/
def takeN (n : Nat) : Rd Bytes := fun b =>
  if b.length < n then .err (.other "EOF") else .ok (b.take n, b.drop n)

/-- `fr.Number(&x)` for a one-byte `x`. -/
def num8 : Rd Byte := fun b => if b.length < 1 then .err (.other "EOF") else readU8 b
/-- `fr.Number(&x)` for a two-byte `x`. -/
def num16 : Rd (BitVec 16) := fun b => if b.length < 2 then .err (.other "EOF") else readLe16 b
/-- `fr.Number(&x)` for a four-byte `x`. -/
def num32 : Rd (BitVec 32) := fun b => if b.length < 4 then .err (.other "EOF") else readLe32 b

/-- `fr.All()`. -/
def takeAll : Rd Bytes := fun b => .ok (b, [])

/-- `fr.Add(0, err)` for the outcome of a call that does not touch the reader. -/
def liftRes {α : Type} (x : Res α) : Rd α := fun b => do
  let a ← x
  pure (a, b)

/-- `readString` (rbxl/model.go:26-44). -/
def readString : Rd Bytes := do
  let n ← num32
  takeN n.toNat

/-- `writeString` (rbxl/model.go:46-56). -/
def writeString (s : Bytes) : Bytes := le32 (len32 s) ++ s

/-! ## Chunks -/

/-- `sigINST` (rbxl/model.go:326). -/
def sigINST : BitVec 32 := 0x54534E49
/-- `sigEND` (rbxl/model.go:454). -/
def sigEND : BitVec 32 := 0x00444E45
/-- `sigPRNT` (rbxl/model.go:490). -/
def sigPRNT : BitVec 32 := 0x544E5250
/-- `sigPROP` (rbxl/model.go:595). -/
def sigPROP : BitVec 32 := 0x504F5250
/-- `sigMETA` (rbxl/model.go:687). -/
def sigMETA : BitVec 32 := 0x4154454D
/-- `sigSSTR` (rbxl/model.go:742). -/
def sigSSTR : BitVec 32 := 0x52545353

/-- `unicode.IsPrint` on a code point below 256. -/
def isPrintByte (c : Byte) : Bool :=
  (decide (0x20 ≤ c.toNat) && decide (c.toNat ≤ 0x7E)) ||
  (decide (0xA1 ≤ c.toNat) && c != 0xAD#8)

/-- `sig.String` (rbxl/model.go:101-110). -/
def sigString (s : BitVec 32) : Bytes :=
  (le32 s).map fun c => if isPrintByte c then c else 0x2E#8

/-- `chunkInstance` (rbxl/model.go:331-359). -/
structure InstChunk where
  classID : BitVec 32
  className : Bytes
  ids : List (BitVec 32)
  isService : Bool
  getService : Bytes
  deriving DecidableEq, Repr, Inhabited

/-- `chunkProperty` (rbxl/model.go:599-613). `none` is a nil `Properties`. -/
structure PropChunk where
  classID : BitVec 32
  name : Bytes
  props : Option Arr
  deriving DecidableEq, Repr, Inhabited

/-- `chunkParent` (rbxl/model.go:494-511). -/
structure ParentChunk where
  version : Byte
  children : List (BitVec 32)
  parents : List (BitVec 32)
  deriving DecidableEq, Repr, Inhabited

/-- `chunkSharedStrings` (rbxl/model.go:745-750); a value is its 16-byte hash and its content. -/
structure SharedChunk where
  version : BitVec 32
  values : List (Bytes × Bytes)
  deriving DecidableEq, Repr, Inhabited

/-- The Go types implementing `chunk`. `errored` is `chunkErrored` (rbxl/model.go:294-306): the
signature of the wrapped chunk and the raw bytes. -/
inductive Body where
  | inst (c : InstChunk)
  | prop (c : PropChunk)
  | parent (c : ParentChunk)
  | metadata (values : List (Bytes × Bytes))
  | shared (c : SharedChunk)
  | end_ (content : Bytes)
  | unknown (sig : BitVec 32) (payload : Bytes)
  | errored (sig : BitVec 32) (bytes : Bytes)
  deriving DecidableEq, Repr, Inhabited

/-- A chunk with its `compressed` flag. -/
structure Chunk where
  body : Body
  compressed : Bool
  deriving DecidableEq, Repr, Inhabited

/-- `chunk.Signature`. -/
def Body.sig : Body → BitVec 32
  | .inst _ => sigINST
  | .prop _ => sigPROP
  | .parent _ => sigPRNT
  | .metadata _ => sigMETA
  | .shared _ => sigSSTR
  | .end_ _ => sigEND
  | .unknown s _ => s
  | .errored s _ => s

/-! ### Payload decoding -/

/-- The id array read in `chunkInstance.Decode` and `chunkParent.Decode` (rbxl/model.go:387-402,
528-543, 545-560): nothing is read for an empty array; `n*4` is computed in `uint32`. -/
def readRefs (n : BitVec 32) : Rd (List (BitVec 32)) :=
  if n = 0#32 then pure []
  else do
    let raw ← takeN (n * 4#32).toNat
    liftRes (refArrayFrom raw n.toNat)

/-- `chunkInstance.Decode` (rbxl/model.go:365-412). -/
def decodeInst : Rd InstChunk := do
  let classID ← num32
  let className ← readString
  let isService ← num8
  let groupLength ← num32
  let ids ← readRefs groupLength
  if isService != 0#8 then
    let gs ← takeN groupLength.toNat
    pure ⟨classID, className, ids, true, gs⟩
  else
    pure ⟨classID, className, ids, false, []⟩

/-- `chunkEnd.Decode` (rbxl/model.go:472-478). -/
def decodeEnd : Rd Bytes := takeAll

/-- `chunkParent.Decode` (rbxl/model.go:517-564). -/
def decodeParent : Rd ParentChunk := do
  let version ← num8
  let count ← num32
  let children ← readRefs count
  let parents ← readRefs count
  pure ⟨version, children, parents⟩

/-- `chunkProperty.Decode` (rbxl/model.go:619-656). `groups` is `groupLookup`, mapping a class id to
the position of the INST chunk in the file and the chunk. -/
def decodeProp (slack : Bytes → Nat) (groups : Map (BitVec 32) (Nat × InstChunk)) :
    Rd PropChunk := do
  let classID ← num32
  match groups.get? classID with
  | none => liftRes (.err (.other "unknown ID"))
  | some (_, inst) =>
    let name ← readString
    let raw ← takeAll
    if raw = [] then pure ⟨classID, name, none⟩
    else
      let (a, _, _) ← liftRes (typeArrayFrom (slack raw) inst.ids.length raw)
      pure ⟨classID, name, some a⟩

/-- One pair of `chunkMeta.Decode` (rbxl/model.go:709-716). -/
def readPair : Rd (Bytes × Bytes) := do
  let k ← readString
  let v ← readString
  pure (k, v)

/-- `chunkMeta.Decode` (rbxl/model.go:700-719). -/
def decodeMeta : Rd (List (Bytes × Bytes)) := do
  let size ← num32
  rdMany readPair size.toNat

/-- One entry of `chunkSharedStrings.Decode` (rbxl/model.go:775-785). The missing `return` after a
failed read of the hash does not matter: the error is sticky and `readString` then fails. -/
def readShared : Rd (Bytes × Bytes) := do
  let h ← takeN 16
  let v ← readString
  pure (h, v)

/-- `chunkSharedStrings.Decode` (rbxl/model.go:761-788). -/
def decodeShared : Rd SharedChunk := do
  let version ← num32
  let length ← num32
  let values ← rdMany readShared length.toNat
  pure ⟨version, values⟩

/-! ### Payload encoding -/

/-- `chunk.WriteTo`: `chunkInstance` (rbxl/model.go:414-450), `chunkParent` (566-591),
`chunkProperty` (658-683), `chunkMeta` (721-738), `chunkSharedStrings` (790-811), `chunkEnd`
(480-486), `chunkUnknown` (283-289), `chunkErrored` (316-322). -/
def Body.payload : Body → Res Bytes
  | .inst c => do
    let refs ← (if c.ids = [] then pure [] else refArrayToBytes c.ids : Res Bytes)
    pure (le32 c.classID ++ (writeString c.className ++ ((if c.isService then 1#8 else 0#8) ::
      (le32 (len32 c.ids) ++ (refs ++ (if c.isService then c.getService else []))))))
  | .parent c =>
    if c.parents.length ≠ c.children.length then .err (.other "errParentArray")
    else do
      let cs ← (if c.children = [] then pure [] else refArrayToBytes c.children : Res Bytes)
      let ps ← (if c.children = [] then pure [] else refArrayToBytes c.parents : Res Bytes)
      pure (c.version :: (le32 (len32 c.children) ++ (cs ++ ps)))
  | .prop c => do
    let raw ← (match c.props with
      | none => pure []
      | some a => typeArrayToBytes a : Res Bytes)
    pure (le32 c.classID ++ (writeString c.name ++ raw))
  | .metadata values => pure (le32 (len32 values) ++
      values.flatMap fun kv => writeString kv.1 ++ writeString kv.2)
  | .shared c => pure (le32 c.version ++ (le32 (len32 c.values) ++
      c.values.flatMap fun hv => hv.1 ++ writeString hv.2))
  | .end_ content => pure content
  | .unknown _ payload => pure payload
  | .errored _ bytes => pure bytes

/-! ## Raw chunks -/

/-- The lz4 library (github.com/bkaradzic/go-lz4): `enc` is `lz4.Encode` without the length prefix
it emits, `dec n` is `lz4.Decode` of a block with a given decompressed length. -/
structure LZ4 where
  enc : Bytes → Res Bytes
  dec : BitVec 32 → Bytes → Res Bytes

/-- What is assumed of lz4: it does not panic, an encoded block is not empty, is short enough for
its length field, and decodes to what was encoded; decoding fills the buffer it was given, which
has the announced length. -/
structure LZ4.Lossless (lz : LZ4) : Prop where
  enc_ne_panic : ∀ p, lz.enc p ≠ .panic
  dec_ne_panic : ∀ n c, lz.dec n c ≠ .panic
  dec_length : ∀ n c p, lz.dec n c = .ok p → p.length = n.toNat
  enc_ok : ∀ p c, lz.enc p = .ok c → c ≠ [] ∧ c.length < 2 ^ 32 - 4 ∧ lz.dec (len32 p) c = .ok p

/-- The assumption is satisfiable: a codec that stores a marker byte and the data. -/
def LZ4.stored : LZ4 where
  enc p := if p.length < 2 ^ 31 then .ok (0#8 :: p) else .err (.other "too large")
  dec n c := if c.tail.length = n.toNat then .ok c.tail else .err (.other "malformed")

theorem LZ4.stored_lossless : LZ4.stored.Lossless where
  enc_ne_panic p := by simp only [stored]; split <;> simp
  dec_ne_panic _ _ := by simp only [stored]; split <;> simp
  dec_length n c p h := by
    simp only [stored] at h
    split at h <;> simp at h
    subst h; assumption
  enc_ok p c h := by
    simp only [stored] at h
    split at h <;> simp at h
    subst h
    have : (len32 p).toNat = p.length := by simp [len32]; omega
    simp [stored, this]; omega

/-- `rawChunk` (rbxl/model.go:142-146). -/
structure Raw where
  sig : BitVec 32
  compressed : Bool
  payload : Bytes
  deriving DecidableEq, Repr, Inhabited

/-- `rawChunk.Decode` (rbxl/model.go:153-203). `compressedLength+4` is computed in `uint32`; when it
wraps around, `PutUint32` on the short buffer panics. -/
def rawDecode (lz : LZ4) : Rd Raw := do
  let sig ← num32
  let compressedLength ← num32
  let decompressedLength ← num32
  let _reserved ← num32
  if compressedLength = 0#32 then
    let payload ← takeN decompressedLength.toNat
    pure ⟨sig, false, payload⟩
  else if (compressedLength + 4#32).toNat < 4 then liftRes .panic
  else
    let data ← takeN compressedLength.toNat
    let payload ← liftRes (lz.dec decompressedLength data)
    pure ⟨sig, true, payload⟩

/-- `rawChunk.WriteTo` (rbxl/model.go:206-266). -/
def rawWrite (lz : LZ4) (c : Raw) : Res Bytes :=
  if c.compressed then do
    let data ← lz.enc c.payload
    pure (le32 c.sig ++ (le32 (len32 data) ++ (le32 (len32 c.payload) ++ (le32 0 ++ data))))
  else
    pure (le32 c.sig ++ (le32 0 ++ (le32 (len32 c.payload) ++ (le32 0 ++ c.payload))))

/-! ## Decoder -/

/-- Warnings of the decoder and encoder. -/
inductive Warn where
  /-- `errReserve` -/
  | reserve (bytes : Bytes)
  /-- `ChunkError{Index, Sig, errUnknownChunkSig}` -/
  | unknownSig (index : Nat) (sig : BitVec 32)
  /-- `ChunkError{Index, Sig, Cause}` -/
  | chunk (index : Nat) (sig : BitVec 32) (cause : Err)
  | endCompressed
  | endContent
  | endNotLast
  deriving DecidableEq, Repr

/-- `DecoderStats` (rbxl/decoder.go:14-21). -/
structure Stats where
  xml : Bool := false
  version : BitVec 16 := 0
  classCount : BitVec 32 := 0
  instanceCount : BitVec 32 := 0
  chunks : Nat := 0
  chunkTypes : Map Bytes Nat := []
  deriving DecidableEq, Repr

/-- `formatModel` (rbxl/model.go:77-94). -/
structure FormatModel where
  version : BitVec 16
  classCount : BitVec 32
  instanceCount : BitVec 32
  chunks : List Chunk
  trailing : Bytes
  /-- the class id, the position of the INST chunk in `chunks`, the chunk -/
  groupLookup : Map (BitVec 32) (Nat × InstChunk)
  deriving DecidableEq, Repr

/-- The state of the chunk loop. -/
structure LoopState where
  chunks : List Chunk := []
  groups : Map (BitVec 32) (Nat × InstChunk) := []
  warns : List Warn := []
  stats : Stats := {}

/-- `"</roblox>"`. -/
def endTag : Bytes := str "</roblox>"

/-- The payload decoding of `decodeChunks` (rbxl/decoder.go:207-242): `none` for an unknown
signature. -/
def decodeBody (slack : Bytes → Nat) (groups : Map (BitVec 32) (Nat × InstChunk)) (raw : Raw) :
    Option (Res Body) :=
  let run {α : Type} (f : Rd α) (k : α → Body) : Option (Res Body) :=
    some (do
      let (a, _) ← f raw.payload
      pure (k a))
  if raw.sig = sigMETA then run decodeMeta .metadata
  else if raw.sig = sigSSTR then run decodeShared .shared
  else if raw.sig = sigINST then run decodeInst .inst
  else if raw.sig = sigPROP then run (decodeProp slack groups) .prop
  else if raw.sig = sigPRNT then run decodeParent .parent
  else if raw.sig = sigEND then run decodeEnd .end_
  else none

/-- `d.Stats.ChunkTypes[sig.String()]++`. -/
def countType (m : Map Bytes Nat) (s : BitVec 32) : Map Bytes Nat :=
  m.set (sigString s) ((m.get? (sigString s)).getD 0 + 1)

/-- One iteration of `decodeChunks` after the raw chunk was read (rbxl/decoder.go:200-270).
The flag tells whether the loop ends. -/
def stepChunk (slack : Bytes → Nat) (st : LoopState) (raw : Raw) : Res (LoopState × Bool) :=
  let i := st.chunks.length
  let st := { st with stats := { st.stats with chunkTypes := countType st.stats.chunkTypes raw.sig } }
  match decodeBody slack st.groups raw with
  | none =>
    .ok ({ st with
      chunks := st.chunks ++ [⟨.unknown raw.sig raw.payload, raw.compressed⟩]
      warns := st.warns ++ [.unknownSig i raw.sig]
      stats := { st.stats with chunks := st.stats.chunks + 1 } }, false)
  | some .panic => .panic
  | some (.err e) =>
    .ok ({ st with
      chunks := st.chunks ++ [⟨.errored raw.sig raw.payload, raw.compressed⟩]
      warns := st.warns ++ [.chunk i raw.sig e] }, false)
  | some (.ok body) =>
    let groups := match body with
      | .inst c => st.groups.set c.classID (i, c)
      | _ => st.groups
    let warns := match body with
      | .end_ content => (if raw.compressed then [Warn.endCompressed] else []) ++
          (if content ≠ endTag then [Warn.endContent] else [])
      | _ => []
    .ok ({ st with
      chunks := st.chunks ++ [⟨body, raw.compressed⟩]
      groups := groups
      warns := st.warns ++ warns
      stats := { st.stats with chunks := st.stats.chunks + 1 } },
      match body with
      | .end_ _ => true
      | _ => false)

/-- `decodeChunks` (rbxl/decoder.go:194-274). Returns the final state together with the rest of the
stream or the error. The loop has no bound in Go; every iteration consumes at least 16 bytes, so
`fuel` larger than the number of bytes is never exhausted (`decodeChunks_fuel`). -/
def decodeChunks (lz : LZ4) (slack : Bytes → Nat) : Nat → LoopState → Bytes → LoopState × Res Bytes
  | 0, st, _ => (st, .panic)
  | fuel + 1, st, b =>
    match rawDecode lz b with
    | .panic => (st, .panic)
    | .err e => (st, .err e)
    | .ok (raw, rest) =>
      match stepChunk slack st raw with
      | .panic => (st, .panic)
      | .err e => (st, .err e)
      | .ok (st, true) => (st, .ok rest)
      | .ok (st, false) => decodeChunks lz slack fuel st rest

/-- `decompressChunks` (rbxl/decoder.go:276-301). -/
def decompressChunks (lz : LZ4) : Nat → LoopState → Bytes → LoopState × Res Bytes
  | 0, st, _ => (st, .panic)
  | fuel + 1, st, b =>
    match rawDecode lz b with
    | .panic => (st, .panic)
    | .err e => (st, .err e)
    | .ok (raw, rest) =>
      let st := { st with
        chunks := st.chunks ++ [⟨.unknown raw.sig raw.payload, raw.compressed⟩]
        stats := { st.stats with
          chunkTypes := countType st.stats.chunkTypes raw.sig
          chunks := st.stats.chunks + 1 } }
      if raw.sig = sigEND then (st, .ok rest) else decompressChunks lz fuel st rest

/-- `robloxSig` (rbxl/model.go:16). -/
def robloxSig : Bytes := str "<roblox"
/-- `binaryMarker` (rbxl/model.go:19). -/
def binaryMarker : Bytes := str "!"
/-- `binaryHeader` (rbxl/model.go:22). -/
def binaryHeader : Bytes := [0x89, 0xff, 0x0D, 0x0A, 0x1A, 0x0A]

/-- What the start of the stream tells (`Decoder.decode` up to the chunks,
rbxl/decoder.go:101-172). -/
inductive Start where
  /-- the legacy XML format: the complete original content -/
  | xml (content : Bytes)
  /-- the binary format: counts, reserved bytes, the rest of the stream -/
  | binary (classCount instanceCount : BitVec 32) (reserved rest : Bytes)
  deriving DecidableEq, Repr

/-- The first part of `Decoder.decode` (rbxl/decoder.go:101-172), with the reads of the header. -/
def readStart (noXML : Bool) (b : Bytes) : Res Start := do
  let (signature, r) ← takeN 8 b
  if signature.take 7 ≠ robloxSig then .err (.other "invalid signature")
  else if signature.drop 7 ≠ binaryMarker then
    if noXML then .err (.other "invalid signature")
    else .ok (.xml (signature ++ r))
  else
    let (header, r) ← takeN 6 r
    if header ≠ binaryHeader then .err (.other "the file header is corrupted")
    else
      let (version, r) ← num16 r
      if version ≠ 0#16 then .err (.other "unrecognized version")
      else
        let (classCount, r) ← num32 r
        let (instanceCount, r) ← num32 r
        let (reserved, r) ← takeN 8 r
        pure (.binary classCount instanceCount reserved r)

/-- The outcome of `Decoder.decode`: the model or the XML content. -/
inductive Decoded where
  | xml (content : Bytes)
  | model (f : FormatModel)
  deriving DecidableEq, Repr

/-- `Decoder.decode` (rbxl/decoder.go:101-192): warnings, statistics and result. The statistics
fields `version`, `classCount`, `instanceCount` are set as the header is read; the model sets them
only when the header was read completely. -/
def decodeFile (lz : LZ4) (slack : Bytes → Nat) (noXML dcomp : Bool) (b : Bytes) :
    List Warn × Stats × Res Decoded :=
  match readStart noXML b with
  | .panic => ([], {}, .panic)
  | .err e => ([], {}, .err e)
  | .ok (.xml content) => ([], { xml := true }, .ok (.xml content))
  | .ok (.binary classCount instanceCount reserved rest) =>
    let st0 : LoopState := {
      warns := if reserved ≠ List.replicate 8 0#8 then [.reserve reserved] else []
      stats := { classCount := classCount, instanceCount := instanceCount } }
    let out := if dcomp then decompressChunks lz (rest.length + 1) st0 rest
      else decodeChunks lz slack (rest.length + 1) st0 rest
    (out.1.warns, out.1.stats,
      match out.2 with
      | .panic => .panic
      | .err e => .err e
      | .ok trailing => .ok (.model ⟨0, classCount, instanceCount, out.1.chunks, trailing,
          out.1.groups⟩))

/-! ## Encoder -/

/-- `Encoder.encode`, one chunk (rbxl/encoder.go:94-109). -/
def writeChunk (lz : LZ4) (uncompressed : Bool) (c : Chunk) : Res Bytes := do
  let payload ← c.body.payload
  rawWrite lz ⟨c.body.sig, if uncompressed then false else c.compressed, payload⟩

/-- The chunk loop of `Encoder.encode`. -/
def writeChunks (lz : LZ4) (uncompressed : Bool) : List Chunk → Res Bytes
  | [] => .ok []
  | c :: cs => do
    let x ← writeChunk lz uncompressed c
    let y ← writeChunks lz uncompressed cs
    pure (x ++ y)

/-- The header written by `Encoder.encode` (rbxl/encoder.go:55-74). -/
def fileHeader (version : BitVec 16) (classCount instanceCount : BitVec 32) : Bytes :=
  robloxSig ++ binaryMarker ++ binaryHeader ++ le16 version ++ le32 classCount ++
    le32 instanceCount ++ le64 0

/-- `Encoder.encode` (rbxl/encoder.go:50-115): the bytes written. -/
def encodeFile (lz : LZ4) (uncompressed : Bool) (f : FormatModel) : Res Bytes := do
  let cs ← writeChunks lz uncompressed f.chunks
  pure (fileHeader f.version f.classCount f.instanceCount ++ cs ++ f.trailing)

/-- `validChunk` (rbxl/model.go:61-73). -/
def validChunk (s : BitVec 32) : Bool :=
  s == sigMETA || s == sigSSTR || s == sigINST || s == sigPROP || s == sigPRNT || s == sigEND

/-- The warnings of `Encoder.encode` (rbxl/encoder.go:76-92). `n` is the number of chunks. -/
def encodeWarnsAux (uncompressed dcomp : Bool) (n : Nat) : Nat → List Chunk → List Warn
  | _, [] => []
  | i, c :: cs =>
    (if !validChunk c.body.sig && !dcomp then [Warn.unknownSig i c.body.sig] else []) ++
    (match c.body with
      | .end_ content =>
        (if !uncompressed && c.compressed then [Warn.endCompressed] else []) ++
        (if content ≠ endTag && !dcomp then [Warn.endContent] else []) ++
        (if i + 1 ≠ n && !dcomp then [Warn.endNotLast] else [])
      | _ => []) ++
    encodeWarnsAux uncompressed dcomp n (i + 1) cs

/-- The warnings of `Encoder.encode`. -/
def encodeWarns (uncompressed dcomp : Bool) (f : FormatModel) : List Warn :=
  encodeWarnsAux uncompressed dcomp f.chunks.length 0 f.chunks

/-- `Decoder.Decompress` (rbxl/decoder.go:70-87): warnings and the bytes written. -/
def decompress (lz : LZ4) (noXML : Bool) (b : Bytes) : List Warn × Res Bytes :=
  match decodeFile lz (fun _ => 0) noXML true b with
  | (ws, _, .panic) => (ws, .panic)
  | (ws, _, .err e) => (ws, .err e)
  | (ws, _, .ok (.xml _)) => (ws, .err (.other "unexpected XML format"))
  | (ws, _, .ok (.model f)) => (ws ++ encodeWarns true true f, encodeFile lz true f)

end Rbxl

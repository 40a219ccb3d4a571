import Verif.Props.Chunks
import Verif.Rbxl.FileLemmas
/-!
# C08, C09, C10, C22, C23, C24, C25, C57: frames and files

`binaryStart cc ic res` are the bytes a binary file starts with: `<roblox!`, the six header bytes,
version 0, class count, instance count and the eight reserved bytes `res`.
`Frames lz rest raws trailing`: `rest` consists of the frames `raws`, exactly the last of which is
an END chunk, and of `trailing`.
-/
namespace Props
open Go Rbxl Rbxfile

/-! ## C08 -/

/-- C08: writing any chunk (compressed or not) and reading it back, whatever follows, yields the
same signature, compression flag and payload. -/
theorem C08_chunk_roundtrip (lz : LZ4) (hlz : lz.Lossless) (c : Raw) (hp : c.payload.length < 2 ^ 32)
    (e : Bytes) (h : rawWrite lz c = .ok e) (rest : Bytes) :
    rawDecode lz (e ++ rest) = .ok (c, rest) := rawDecode_rawWrite hlz c hp e h rest

/-- C08: writing a sequence of chunks and reading the stream back yields the sequence up to and
including the END chunk, and leaves what follows. -/
theorem C08_frames_roundtrip (lz : LZ4) (hlz : lz.Lossless) (raws : List Raw) (last : Raw)
    (s : Bytes) (hs : ∀ r ∈ raws, r.sig ≠ sigEND) (hl : last.sig = sigEND)
    (hp : ∀ r ∈ raws ++ [last], r.payload.length < 2 ^ 32) (es : List Bytes)
    (h : (raws ++ [last]).map (rawWrite lz) = es.map .ok) :
    Frames lz (es.flatten ++ s) (raws ++ [last]) s := Frames.write hlz raws last s hs hl hp es h

/-- C08: `Frames` determines its chunks: a stream cannot be read in two ways. -/
theorem C08_frames_unique (lz : LZ4) (b : Bytes) (raws raws' : List Raw) (rest rest' : Bytes)
    (h : Frames lz b raws rest) (h' : Frames lz b raws' rest') : raws = raws' ∧ rest = rest' :=
  h.det h'

/-- C08: a whole file. Decoding the bytes written for a model yields its counts, its chunks in
order (without the fields that are not stored, `Chunk.back`) with their compression flags, and the
trailing bytes; unknown chunks and a malformed END chunk are the only warnings. -/
theorem C08_file_roundtrip (lz : LZ4) (hlz : lz.Lossless) (slack : Bytes → Nat)
    (noXML uncompressed : Bool) (f : FormatModel) (hv : f.version = 0)
    (hg : GoodChunks [] 0 f.chunks) (b : Bytes) (h : encodeFile lz uncompressed f = .ok b) :
    ∃ stats, decodeFile lz slack noXML false b =
      ((f.chunks.zipIdx 0).flatMap (fun c => backWarns uncompressed c.2 c.1), stats,
        .ok (.model ⟨0, f.classCount, f.instanceCount, f.chunks.map (Chunk.back uncompressed),
          f.trailing, groupsOf [] 0 f.chunks⟩)) ∧
      stats.classCount = f.classCount ∧ stats.instanceCount = f.instanceCount ∧
      stats.chunks = f.chunks.length := by
  simp only [encodeFile, Res.bind_eq_ok, Res.pure_eq, Res.ok.injEq] at h
  obtain ⟨cs, h1, rfl⟩ := h
  obtain ⟨raws, hf, hr⟩ := goodChunks_read hlz slack uncompressed f.trailing f.chunks [] 0 hg cs h1
  obtain ⟨st', g1, g2, g3, g4, g5⟩ := hr (loop0 f.classCount f.instanceCount (List.replicate 8 0#8))
    rfl rfl
  have hd := (decodeChunks_frames (slack := slack) hf hlz ((cs ++ f.trailing).length + 1)
    (loop0 f.classCount f.instanceCount (List.replicate 8 0#8)) (by omega)).1 st' g1
  refine ⟨st'.stats, ?_, by rw [g5]; rfl, by rw [g5]; rfl, by rw [g5]; simp [loop0]⟩
  rw [hv, List.append_assoc]
  simp only [decodeFile, readStart_fileHeader, Bool.false_eq_true, if_false]
  simp only [loop0] at hd g2 g4
  rw [hd]
  simp only [g2, g3, g4]
  simp

/-- A model with an instance chunk, a property, an unknown chunk and an END chunk. -/
def exModel : FormatModel where
  version := 0
  classCount := 1
  instanceCount := 2
  chunks := [⟨.inst exInst, true⟩, ⟨.prop ⟨0, str "Value", some (.plain .int [.int 5, .int 7])⟩, true⟩,
    ⟨.unknown 0 [1, 2, 3], false⟩, ⟨.parent ⟨0, [0, 2], [-1, 0]⟩, true⟩, ⟨.end_ endTag, false⟩]
  trailing := [9, 9]
  groupLookup := []

theorem exModel_good : GoodChunks [] 0 exModel.chunks := by
  refine ⟨⟨by decide, by decide, by decide⟩, by decide, ?_, ?_⟩
  · intro e he
    have : (Body.inst exInst).payload = .ok [0, 0, 0, 0, 4, 0, 0, 0, 0x50, 0x61, 0x72, 0x74, 1,
      2, 0, 0, 0, 0, 0, 0, 0, 0, 0, 0, 4, 1, 0] := by decide
    simp only [exModel] at he
    rw [this] at he; cases he; decide
  refine ⟨⟨by decide, 0, exInst, rfl, ?_⟩, by decide, ?_, ?_⟩
  · intro a ha; cases ha
    exact ⟨by decide, by decide, rfl, by simp [OfType, Val.type, Val.lenOk]⟩
  · intro e he
    have : (Body.prop ⟨0, str "Value", some (.plain .int [.int 5, .int 7])⟩).payload =
      .ok [0, 0, 0, 0, 5, 0, 0, 0, 0x56, 0x61, 0x6c, 0x75, 0x65, 3, 0, 0, 0, 0, 0, 0, 10, 14] := by
      decide
    simp only at he
    rw [this] at he; cases he; decide
  refine ⟨rfl, by decide, ?_, ?_⟩
  · intro e he; simp only [Body.payload, Res.pure_eq, Res.ok.injEq] at he; subst he; decide
  refine ⟨⟨rfl, by decide⟩, by decide, ?_, ?_⟩
  · intro e he
    have : (Body.parent ⟨0, [0, 2], [-1, 0]⟩).payload =
      .ok [0, 2, 0, 0, 0, 0, 0, 0, 0, 0, 0, 0, 4, 0, 0, 0, 0, 0, 0, 1, 2] := by decide
    simp only at he
    rw [this] at he; cases he; decide
  exact ⟨endTag, rfl, by decide⟩

example : ∃ b, encodeFile LZ4.stored false exModel = .ok b ∧ ∃ ws stats,
    decodeFile LZ4.stored (fun _ => 0) false false b = (ws, stats, .ok (.model
      { exModel with chunks := exModel.chunks, groupLookup := [(0, (0, exInst))] })) := by
  have hb : ∃ b, encodeFile LZ4.stored false exModel = .ok b := by
    rcases h : encodeFile LZ4.stored false exModel with b | e | _
    · exact ⟨b, rfl⟩
    · exact absurd h (by
        have : (encodeFile LZ4.stored false exModel).isOk := by decide
        intro h; rw [h] at this; exact this)
    · exact absurd h (by
        have : (encodeFile LZ4.stored false exModel).isOk := by decide
        intro h; rw [h] at this; exact this)
  obtain ⟨b, hb⟩ := hb
  obtain ⟨stats, h, -⟩ := C08_file_roundtrip _ LZ4.stored_lossless (fun _ => 0) false false exModel rfl
    exModel_good b hb
  exact ⟨b, hb, _, stats, h⟩

/-! ## C22 -/

/-- C22: a stream is taken as binary exactly when it starts as a binary file of version 0. -/
theorem C22_binary_iff (noXML : Bool) (b : Bytes) (cc ic : BitVec 32) (res rest : Bytes) :
    readStart noXML b = .ok (.binary cc ic res rest) ↔
      b = binaryStart cc ic res ++ rest ∧ res.length = 8 := by
  rw [readStart_binary_iff, ← binaryStart_eq]

/-- C22: a stream is handed to the XML decoder exactly when XML is allowed and its first eight bytes
are `<roblox` and something else than `!`; then the complete stream is handed over. -/
theorem C22_xml_iff (noXML : Bool) (b c : Bytes) :
    readStart noXML b = .ok (.xml c) ↔ c = b ∧ noXML = false ∧
      ∃ x r, b = str "<roblox" ++ x :: r ∧ x ≠ 0x21#8 := by
  rw [readStart_xml_iff]
  constructor
  · rintro ⟨h1, h2, h3, h4, h5⟩
    refine ⟨h1, h2, ?_⟩
    have hd : b = b.take 7 ++ b.drop 7 := (List.take_append_drop 7 b).symm
    rcases hr : b.drop 7 with _ | ⟨x, r⟩
    · have := congrArg List.length hr; simp at this; omega
    · refine ⟨x, r, by rw [hd, h4, hr]; rfl, ?_⟩
      rintro rfl
      apply h5
      rw [List.drop_take, hr]; rfl
  · rintro ⟨h1, h2, x, r, rfl, h3⟩
    refine ⟨h1, h2, by simp [str], by simp [str, robloxSig], ?_⟩
    intro h
    apply h3
    have e : (List.drop 7 (List.take 8 (str "<roblox" ++ x :: r))) = [x] := by
      simp [str]
    rw [e] at h
    have hm : binaryMarker = [0x21#8] := by decide
    rw [hm] at h
    simpa using h

/-- C22: every other stream is rejected with an error, never with a panic. -/
theorem C22_other_rejected (noXML : Bool) (b : Bytes)
    (hb : ∀ cc ic res rest, res.length = 8 → b ≠ binaryStart cc ic res ++ rest)
    (hx : noXML = true ∨ ∀ x r, x ≠ 0x21#8 → b ≠ str "<roblox" ++ x :: r) (lz : LZ4)
    (slack : Bytes → Nat) (quat : Quat) :
    (decodeRoot lz slack quat noXML b).result.isErr := by
  rcases h : readStart noXML b with s | e | _
  · cases s with
    | xml c =>
      obtain ⟨_, h2, x, r, h3, h4⟩ := (C22_xml_iff noXML b c).1 h
      rcases hx with hx | hx
      · simp [hx] at h2
      · exact absurd h3 (hx x r h4)
    | binary cc ic res rest =>
      obtain ⟨h1, h2⟩ := (C22_binary_iff noXML b cc ic res rest).1 h
      exact absurd h1 (hb _ _ _ _ h2)
  · simp [decodeRoot, decodeFile, h]
  · exact absurd h (readStart_ne_panic noXML b)

/-- C22: with XML allowed, `Decode` hands a legacy file to the XML decoder unchanged. -/
theorem C22_xml_complete (lz : LZ4) (slack : Bytes → Nat) (quat : Quat) (x : Byte) (r : Bytes)
    (hx : x ≠ 0x21#8) :
    (decodeRoot lz slack quat false (str "<roblox" ++ x :: r)).result =
      .ok (.xml (str "<roblox" ++ x :: r)) := by
  have h := (C22_xml_iff false (str "<roblox" ++ x :: r) _).2 ⟨rfl, rfl, x, r, rfl, hx⟩
  simp [decodeRoot, decodeFile, h]

/-- C22: a version other than 0 is rejected. -/
theorem C22_version (lz : LZ4) (slack : Bytes → Nat) (quat : Quat) (noXML : Bool) (v : BitVec 16)
    (hv : v ≠ 0#16) (rest : Bytes) :
    (decodeRoot lz slack quat noXML (str "<roblox!" ++ binaryHeader ++ le16 v ++ rest)).result.isErr := by
  apply C22_other_rejected
  · intro cc ic res r hl he
    have e1 : binaryStart cc ic res ++ r =
        (str "<roblox!" ++ binaryHeader) ++ (le16 0 ++ (le32 cc ++ (le32 ic ++ (res ++ r)))) := by
      simp only [binaryStart_eq, List.append_assoc]
      have : robloxSig ++ binaryMarker = str "<roblox!" := by decide
      rw [← List.append_assoc, this]
    rw [e1, List.append_assoc (str "<roblox!" ++ binaryHeader)] at he
    have h2 := List.append_cancel_left he
    have h3 := num16_app v rest
    rw [h2, num16_app] at h3
    simp at h3
    exact hv h3.1.symm
  · refine .inr fun x r hx he => ?_
    have h1 := congrArg (fun l => l[7]?) he
    simp [str] at h1
    exact hx h1.symm

/-- C22: the reserved bytes make no difference except for a warning. -/
theorem C22_reserved (lz : LZ4) (slack : Bytes → Nat) (quat : Quat) (noXML : Bool)
    (cc ic : BitVec 32) (res rest : Bytes) (h : res.length = 8) :
    let plain := decodeRoot lz slack quat noXML (binaryStart cc ic (List.replicate 8 0#8) ++ rest)
    decodeRoot lz slack quat noXML (binaryStart cc ic res ++ rest) =
      { plain with warns :=
          (if res = List.replicate 8 0#8 then [] else [.reserve res]) ++ plain.warns } := by
  intro plain
  have hp : plain = decodeOut quat cc ic (decodeChunks lz slack (rest.length + 1)
      (loop0 cc ic (List.replicate 8 0#8)) rest) := decodeRoot_start (by simp) rest
  rw [hp, decodeRoot_start h]
  have e : loop0 cc ic res = (loop0 cc ic (List.replicate 8 0#8)).warn
      (if res = List.replicate 8 0#8 then [] else [.reserve res]) := by
    by_cases hr : res = List.replicate 8 0#8 <;> simp [loop0, LoopState.warn, hr]
  rw [e, decodeChunks_warn]
  rcases decodeChunks lz slack (rest.length + 1) (loop0 cc ic (List.replicate 8 0#8)) rest with
    ⟨st, _ | _ | _⟩ <;> simp [decodeOut, LoopState.warn]

example : readStart false (str "<roblox xmlns") = .ok (.xml (str "<roblox xmlns")) :=
  (C22_xml_iff _ _ _).2 ⟨rfl, rfl, 0x20, str "xmlns", by decide, by decide⟩
example : ((decodeRoot LZ4.stored (fun _ => 0) (fun _ _ _ _ => zeroMatrix) true
    (str "<roblox xmlns")).result).isErr :=
  C22_other_rejected _ _ (by
    intro cc ic res rest _ h
    have := congrArg (fun l => l[7]?) h
    simp [str, binaryStart] at this) (.inl rfl) _ _ _

/-! ## C25 -/

/-- C25: the bytes after the END chunk make no difference at all. -/
theorem C25_trailing_irrelevant (lz : LZ4) (hlz : lz.Lossless) (slack : Bytes → Nat) (quat : Quat)
    (noXML : Bool) (cc ic : BitVec 32) (res : Bytes) (h : res.length = 8) (body : Bytes)
    (raws : List Raw) (hf : Frames lz body raws []) (s : Bytes) :
    decodeRoot lz slack quat noXML (binaryStart cc ic res ++ body ++ s) =
      decodeRoot lz slack quat noXML (binaryStart cc ic res ++ body) := by
  obtain ⟨c, e, hs⟩ := hf.append
  rw [List.append_nil] at e; subst e
  rw [List.append_assoc, decodeRoot_start h, decodeRoot_start h]
  have hfu : ∀ fuel st, body.length < fuel →
      decodeChunks lz slack ((body ++ s).length + 1) st (body ++ s) =
        ((decodeChunks lz slack fuel st body).1,
          (decodeChunks lz slack fuel st body).2 >>= fun t => .ok (t ++ s)) := by
    clear hs
    intro fuel st hl
    rw [decodeChunks_fuel hlz _ (fuel + s.length) _ _ (by simp) (by simp; omega)]
    have hf' : ∃ t, Frames lz body raws t := ⟨[], hf⟩
    clear hf
    obtain ⟨t, hf⟩ := hf'
    induction hf generalizing fuel st with
    | @last b raw rest h1 h2 =>
      obtain ⟨c, e, hs⟩ := stable_rawDecode lz _ _ _ h1
      obtain ⟨f, rfl⟩ : ∃ f, fuel = f + 1 := ⟨fuel - 1, by omega⟩
      have h1' : rawDecode lz (b ++ s) = .ok (raw, rest ++ s) := by
        rw [e, List.append_assoc]; exact hs _
      rw [show f + 1 + s.length = (f + s.length) + 1 by omega]
      simp only [decodeChunks, h1, h1']
      have hfl := (stepChunk_flag (slack := slack) (st := st) (raw := raw))
      rcases hst : stepChunk slack st raw with ⟨st1, g⟩ | e | _
      · have := hfl.1 _ _ hst; simp [h2] at this; subst this; simp
      · simp
      · simp
    | @cons b raw b' raws rest h1 h2 h3 ih =>
      obtain ⟨c, e, hs⟩ := stable_rawDecode lz _ _ _ h1
      obtain ⟨f, rfl⟩ : ∃ f, fuel = f + 1 := ⟨fuel - 1, by omega⟩
      have h1' : rawDecode lz (b ++ s) = .ok (raw, b' ++ s) := by
        rw [e, List.append_assoc]; exact hs _
      have hlen := (rawDecode_ok hlz h1).2
      rw [show f + 1 + s.length = (f + s.length) + 1 by omega]
      simp only [decodeChunks, h1, h1']
      have hfl := (stepChunk_flag (slack := slack) (st := st) (raw := raw))
      rcases hst : stepChunk slack st raw with ⟨st1, g⟩ | e | _
      · have := hfl.1 _ _ hst; simp [h2] at this; subst this
        simpa using ih f st1 (by omega)
      · simp
      · simp
  rw [hfu (body.length + 1) _ (by omega)]
  rcases decodeChunks lz slack (body.length + 1) (loop0 cc ic res) body with ⟨st, t | e | _⟩
  · simp only [decodeOut, Res.ok_bind]
    have := codecDecode_trailing quat ⟨0, cc, ic, st.chunks, t, st.groups⟩ (t ++ s)
    simp only at this
    rw [this]
  · rfl
  · rfl

/-- C25 in terms of the result: whatever a successfully decoded binary file is followed by, the
decoded tree, the warnings and the statistics stay the same. -/
theorem C25_append (lz : LZ4) (hlz : lz.Lossless) (slack : Bytes → Nat) (quat : Quat)
    (noXML : Bool) (b : Bytes) (hp : Heap Id) (root : Root Id)
    (h : (decodeRoot lz slack quat noXML b).result = .ok (.tree hp root)) (s : Bytes) :
    decodeRoot lz slack quat noXML (b ++ s) = decodeRoot lz slack quat noXML b := by
  rcases hs : readStart noXML b with st | e | _
  · cases st with
    | xml c => simp [decodeRoot, decodeFile, hs] at h
    | binary cc ic res rest =>
      obtain ⟨h1, h2⟩ := (C22_binary_iff noXML b cc ic res rest).1 hs
      subst h1
      rw [decodeRoot_start h2] at h
      rcases hd : decodeChunks lz slack (rest.length + 1) (loop0 cc ic res) rest with ⟨st, t | e | _⟩
      · obtain ⟨raws, hf, _⟩ := decodeChunks_ok hd
        obtain ⟨c, e, hc⟩ := hf.append
        subst e
        have hc' := hc []
        rw [List.append_nil] at hc'
        have e1 := C25_trailing_irrelevant lz hlz slack quat noXML cc ic res h2 c raws hc' (t ++ s)
        have e2 := C25_trailing_irrelevant lz hlz slack quat noXML cc ic res h2 c raws hc' t
        simp only [← List.append_assoc] at e1 e2 ⊢
        rw [e1, e2]
      · simp [hd, decodeOut] at h
      · simp [hd, decodeOut] at h
  · simp [decodeRoot, decodeFile, hs] at h
  · exact absurd hs (readStart_ne_panic _ _)

/-! ## C09, C10 -/

/-- C09: `Decompress` on a well-framed file writes the same counts (and zero reserved bytes), the
same chunks (signature and payload) in the same order without compression, and the same trailing
bytes. The only possible warning is the one about reserved bytes. -/
theorem C09_decompress (lz : LZ4) (hlz : lz.Lossless) (noXML : Bool) (cc ic : BitVec 32)
    (res : Bytes) (h : res.length = 8) (rest : Bytes) (raws : List Raw) (trailing : Bytes)
    (hf : Frames lz rest raws trailing) :
    decompress lz noXML (binaryStart cc ic res ++ rest) =
      ((if res = List.replicate 8 0#8 then [] else [.reserve res]),
        .ok (binaryStart cc ic (List.replicate 8 0#8) ++
          raws.flatMap (fun r => plainFrame r.sig r.payload) ++ trailing)) := by
  rw [decompress_frames hlz h hf]
  simp only [loop0, ne_eq, ite_not]

/-- C09: what is written is well-framed: reading it back gives the same signatures and payloads,
none compressed. -/
theorem C09_output_frames (lz : LZ4) (hlz : lz.Lossless) (rest : Bytes) (raws : List Raw)
    (trailing : Bytes) (hf : Frames lz rest raws trailing) :
    Frames lz (raws.flatMap (fun r => plainFrame r.sig r.payload) ++ trailing)
      (raws.map fun r => ⟨r.sig, false, r.payload⟩) trailing := hf.plain hlz trailing

/-- C09: `Decompress` succeeds only on well-framed files. -/
theorem C09_only_well_framed (lz : LZ4) (noXML : Bool) (b : Bytes) (ws : List Warn) (out : Bytes)
    (h : decompress lz noXML b = (ws, .ok out)) :
    ∃ cc ic res rest raws trailing, b = binaryStart cc ic res ++ rest ∧ res.length = 8 ∧
      Frames lz rest raws trailing := decompress_ok h

/-- C09: running it again changes nothing and does not warn. -/
theorem C09_idempotent (lz : LZ4) (hlz : lz.Lossless) (noXML : Bool) (b : Bytes) (ws : List Warn)
    (out : Bytes) (h : decompress lz noXML b = (ws, .ok out)) :
    decompress lz noXML out = ([], .ok out) := by
  obtain ⟨cc, ic, res, rest, raws, trailing, rfl, h2, hf⟩ := decompress_ok h
  rw [C09_decompress lz hlz noXML cc ic res h2 rest raws trailing hf] at h
  simp only [Prod.mk.injEq, Res.ok.injEq] at h
  obtain ⟨_, rfl⟩ := h
  rw [List.append_assoc, C09_decompress lz hlz noXML cc ic _ (by simp) _ _ trailing
    (C09_output_frames lz hlz rest raws trailing hf)]
  simp [List.flatMap_map]

/-- C10: decoding the output of `Decompress` gives the same tree or error as decoding the original;
the warnings are the same but for those about reserved bytes and about a compressed END chunk. -/
theorem C10_decode_decompressed (lz : LZ4) (hlz : lz.Lossless) (slack : Bytes → Nat) (quat : Quat)
    (noXML : Bool) (b : Bytes) (ws : List Warn) (out : Bytes)
    (h : decompress lz noXML b = (ws, .ok out)) :
    let d := decodeRoot lz slack quat noXML b
    let d' := decodeRoot lz slack quat noXML out
    d'.result = d.result ∧ (d.result ≠ .panic → d'.codecWarns = d.codecWarns ∧ d'.stats = d.stats ∧
      d'.warns = d.warns.filter fun w => match w with
        | .reserve _ => false
        | .endCompressed => false
        | _ => true) := by
  obtain ⟨cc, ic, res, rest, raws, trailing, rfl, h2, hf⟩ := decompress_ok h
  rw [C09_decompress lz hlz noXML cc ic res h2 rest raws trailing hf] at h
  simp only [Prod.mk.injEq, Res.ok.injEq] at h
  obtain ⟨_, rfl⟩ := h
  have hz := C22_reserved lz slack quat noXML cc ic res rest h2
  simp only at hz
  rw [hz]
  have hp := hf.plain hlz trailing
  rw [List.append_assoc]
  have hn : loop0 cc ic (List.replicate 8 0#8) = (loop0 cc ic (List.replicate 8 0#8)).strip := by
    simp [loop0, LoopState.strip]
  have hst := runRaws_strip slack raws (loop0 cc ic (List.replicate 8 0#8))
  rw [← hn] at hst
  have hw : ∀ raws st st', runRaws slack st raws = .ok st' → (∀ w ∈ st.warns, ∀ r, w ≠ .reserve r) →
      ∀ w ∈ st'.warns, ∀ r, w ≠ .reserve r := by
    intro raws
    induction raws with
    | nil => intro st st' h; simp [runRaws] at h; subst h; exact id
    | cons r rs ih =>
      intro st st' h hw
      simp only [runRaws, Res.bind_eq_ok] at h
      obtain ⟨⟨st1, f⟩, h1, h2⟩ := h
      refine ih _ _ h2 ?_
      simp only [stepChunk] at h1
      rcases hb : decodeBody slack st.groups r with _ | ⟨body⟩ | e | _ <;> simp only [hb] at h1
      · cases h1
        intro w hm; simp only [List.mem_append, List.mem_singleton] at hm
        rcases hm with hm | rfl
        · exact hw w hm
        · simp
      · cases h1
        intro w hm; simp only [List.mem_append] at hm
        rcases hm with hm | hm
        · exact hw w hm
        · cases body <;> simp at hm
          rcases hm with hm | hm <;> simp [hm.2]
      · cases h1
        intro w hm; simp only [List.mem_append, List.mem_singleton] at hm
        rcases hm with hm | rfl
        · exact hw w hm
        · simp
      · cases h1
  obtain ⟨a1, a2⟩ := decodeRoot_frames hlz (slack := slack) (quat := quat) (noXML := noXML)
    (cc := cc) (ic := ic) (res := List.replicate 8 0#8) (by simp) hf
  obtain ⟨b1, b2⟩ := decodeRoot_frames hlz (slack := slack) (quat := quat) (noXML := noXML)
    (cc := cc) (ic := ic) (res := List.replicate 8 0#8) (by simp) hp
  rcases hr : runRaws slack (loop0 cc ic (List.replicate 8 0#8)) raws with st | e | _
  · rw [hr] at hst
    simp only [Res.ok_bind, Res.pure_eq] at hst
    rw [a1 _ hr, b1 _ hst]
    have hc := codecDecode_strip quat ⟨0, cc, ic, st.chunks, trailing, st.groups⟩
      ⟨0, cc, ic, st.strip.chunks, trailing, st.strip.groups⟩ rfl rfl rfl
      (by simp [LoopState.strip])
    simp only [decodeOut, hc, true_and]
    refine fun _ => ⟨rfl, ?_⟩
    have hno := hw _ _ _ hr (by simp [loop0])
    have : (if res = List.replicate 8 0#8 then [] else [Warn.reserve res]).filter (fun w => match w with
        | .reserve _ => false
        | .endCompressed => false
        | _ => true) = [] := by split <;> simp
    rw [List.filter_append, this, List.nil_append]
    simp only [LoopState.strip]
    apply List.filter_congr
    intro w hm
    have := hno w hm
    cases w with
    | reserve r => exact absurd rfl (this r)
    | _ => simp
  · exact absurd hr (runRaws_ne_err e)
  · rw [hr] at hst
    simp only [Res.panic_bind] at hst
    simp only [a2 hr, b2 hst, ne_eq, not_true_eq_false, false_implies, and_self]

/-- A concrete well-framed file. -/
def exRaws : List Raw := [⟨0, true, [1, 2]⟩, ⟨sigEND, false, endTag⟩]
/-- Its bytes. -/
def exBytes : Bytes := (exRaws.flatMap fun r => match rawWrite LZ4.stored r with
  | .ok e => e
  | _ => []) ++ [7]
theorem exFrames : Frames LZ4.stored exBytes exRaws [7] := by
  have e1 : ∃ e, rawWrite LZ4.stored ⟨0, true, [1, 2]⟩ = .ok e := ⟨_, rfl⟩
  have e2 : ∃ e, rawWrite LZ4.stored ⟨sigEND, false, endTag⟩ = .ok e := ⟨_, rfl⟩
  obtain ⟨x, hx⟩ := e1
  obtain ⟨y, hy⟩ := e2
  have := C08_frames_roundtrip LZ4.stored LZ4.stored_lossless [⟨0, true, [1, 2]⟩]
    ⟨sigEND, false, endTag⟩ [7] (by simp [sigEND]) rfl (by simp [endTag, str]) [x, y] (by
      simp only [List.cons_append, List.nil_append, List.map_cons, List.map_nil, hx, hy])
  simpa only [exBytes, exRaws, hx, hy, List.flatMap_cons, List.flatMap_nil, List.append_nil,
    List.flatten_cons, List.flatten_nil, List.cons_append, List.nil_append] using this
example : ∃ out, decompress LZ4.stored true (binaryStart 1 2 (List.replicate 8 5#8) ++ exBytes) =
    ([.reserve (List.replicate 8 5#8)], .ok out) ∧
    decompress LZ4.stored true out = ([], .ok out) := by
  have h := C09_decompress LZ4.stored LZ4.stored_lossless true 1 2 (List.replicate 8 5#8) (by simp)
    _ _ _ exFrames
  rw [if_neg (by decide)] at h
  exact ⟨_, h, C09_idempotent _ LZ4.stored_lossless _ _ _ _ h⟩

/-! ## C23, C24 -/

theorem skip_aux (lz : LZ4) (hlz : lz.Lossless) (slack : Bytes → Nat) (quat : Quat)
    (noXML : Bool) (cc ic : BitVec 32) (res : Bytes) (h : res.length = 8) (p : Bytes)
    (raws : List Raw) (hp : IsFrames lz p raws) (u : Bytes) (raw : Raw) (hu : IsFrame lz u raw)
    (hsig : raw.sig ≠ sigEND)
    (hb : ∀ st, runRaws slack (loop0 cc ic res) raws = .ok st →
      decodeBody slack st.groups raw = none ∨ ∃ e, decodeBody slack st.groups raw = some (.err e))
    (q : Bytes) :
    let d := decodeRoot lz slack quat noXML (binaryStart cc ic res ++ (p ++ q))
    let d' := decodeRoot lz slack quat noXML (binaryStart cc ic res ++ (p ++ (u ++ q)))
    d'.result = d.result ∧ (d.result ≠ .panic → d'.warns.length = d.warns.length + 1 ∧
      ∃ k, d'.codecWarns = d.codecWarns.map (CodecWarn.shift k)) := by
  intro d d'
  have hd : d = _ := decodeRoot_start h (p ++ q)
  have hd' : d' = _ := decodeRoot_start h (p ++ (u ++ q))
  rw [hd, hd']
  have k1 := decodeChunks_prefix hlz (slack := slack) hp (loop0 cc ic res) q
  have k2 := decodeChunks_prefix hlz (slack := slack) hp (loop0 cc ic res) (u ++ q)
  rcases hr : runRaws slack (loop0 cc ic res) raws with st | e | _
  · simp only [hr] at k1 k2
    rw [k1, k2]
    have hr2 := hu q
    have hl := (rawDecode_ok hlz hr2).2
    -- one step over the inserted chunk
    have hstep : ∃ x st', stepChunk slack st raw = .ok (st', false) ∧ ((∃ s p, x.body = .unknown s p) ∨ ∃ s p, x.body = .errored s p) ∧
        Inserted st.chunks.length 1 x st st' := by
      rcases hb st hr with hb | ⟨e, hb⟩
      · simp only [stepChunk, hb]
        refine ⟨⟨.unknown raw.sig raw.payload, raw.compressed⟩, _, rfl, .inl ⟨_, _, rfl⟩, ⟨Nat.le_refl _, by simp, ?_, by simp⟩⟩
        exact (groups_lt raws (loop0 cc ic res) st hr (by intro e he; cases he)).symm
      · simp only [stepChunk, hb]
        refine ⟨⟨.errored raw.sig raw.payload, raw.compressed⟩, _, rfl, .inr ⟨_, _, rfl⟩, ⟨Nat.le_refl _, by simp, ?_, by simp⟩⟩
        exact (groups_lt raws (loop0 cc ic res) st hr (by intro e he; cases he)).symm
    obtain ⟨x, st', hs, hxx, hi⟩ := hstep
    have e1 : decodeChunks lz slack ((u ++ q).length + 1) st (u ++ q) =
        decodeChunks lz slack (q.length + 1) st' q := by
      rw [decodeChunks, hr2]
      simp only [hs]
      exact decodeChunks_fuel hlz _ _ _ _ (by omega) (by omega)
    rw [e1]
    obtain ⟨g1, g2⟩ := decodeChunks_inserted (lz := lz) (slack := slack) (q.length + 1) q hi
    rcases hx : decodeChunks lz slack (q.length + 1) st q with ⟨sx, rx⟩
    rcases hy : decodeChunks lz slack (q.length + 1) st' q with ⟨sy, ry⟩
    rw [hx, hy] at g1 g2
    simp only at g1 g2
    subst g1
    cases ry with
    | ok t =>
      obtain ⟨c1, c2⟩ := codecDecode_inserted quat st.chunks.length
        ⟨0, cc, ic, sx.chunks, t, sx.groups⟩ ⟨0, cc, ic, sy.chunks, t, sy.groups⟩ x rfl rfl g2.groups
        g2.len hxx g2.chunks
      simp only [decodeOut, c1, c2, true_and]
      exact fun _ => ⟨g2.warns, _, rfl⟩
    | err e => exact ⟨rfl, fun _ => ⟨g2.warns, 0, rfl⟩⟩
    | panic => exact ⟨rfl, fun hn => absurd rfl hn⟩
  · exact absurd hr (runRaws_ne_err e)
  · simp only [hr] at k1 k2
    have p1 : (decodeOut quat cc ic (decodeChunks lz slack ((p ++ q).length + 1) (loop0 cc ic res)
      (p ++ q))).result = .panic := by simp only [decodeOut, k1]
    have p2 : (decodeOut quat cc ic (decodeChunks lz slack ((p ++ (u ++ q)).length + 1)
      (loop0 cc ic res) (p ++ (u ++ q)))).result = .panic := by simp only [decodeOut, k2]
    rw [p1, p2]
    exact ⟨rfl, fun hn => absurd rfl hn⟩

/-- C23: inserting a chunk with an unknown signature (compressed or not, with any payload) at any
position before the END chunk, in any file (even one that is malformed afterwards), does not change
the decoded tree or error; there is exactly one more warning. -/
theorem C23_unknown_chunk_ignored (lz : LZ4) (hlz : lz.Lossless) (slack : Bytes → Nat) (quat : Quat)
    (noXML : Bool) (cc ic : BitVec 32) (res : Bytes) (h : res.length = 8) (p : Bytes)
    (raws : List Raw) (hp : IsFrames lz p raws) (u : Bytes) (raw : Raw) (hu : IsFrame lz u raw)
    (hsig : raw.sig ∉ [sigMETA, sigSSTR, sigINST, sigPROP, sigPRNT, sigEND]) (q : Bytes) :
    let d := decodeRoot lz slack quat noXML (binaryStart cc ic res ++ (p ++ q))
    let d' := decodeRoot lz slack quat noXML (binaryStart cc ic res ++ (p ++ (u ++ q)))
    d'.result = d.result ∧ (d.result ≠ .panic → d'.warns.length = d.warns.length + 1 ∧
      ∃ k, d'.codecWarns = d.codecWarns.map (CodecWarn.shift k)) := by
  simp only [List.mem_cons, List.not_mem_nil, or_false, not_or] at hsig
  exact skip_aux lz hlz slack quat noXML cc ic res h p raws hp u raw hu hsig.2.2.2.2.2
    (fun st _ => .inl (by simp [decodeBody, hsig])) q

/-- C24: inserting a chunk whose payload cannot be decoded in its place does not change the decoded
tree or error; there is exactly one more warning. -/
theorem C24_malformed_chunk_skipped (lz : LZ4) (hlz : lz.Lossless) (slack : Bytes → Nat)
    (quat : Quat) (noXML : Bool) (cc ic : BitVec 32) (res : Bytes) (h : res.length = 8) (p : Bytes)
    (raws : List Raw) (hp : IsFrames lz p raws) (u : Bytes) (raw : Raw) (hu : IsFrame lz u raw)
    (hbad : ∀ st, runRaws slack (loop0 cc ic res) raws = .ok st →
      ∃ e, decodeBody slack st.groups raw = some (.err e)) (hsig : raw.sig ≠ sigEND) (q : Bytes) :
    let d := decodeRoot lz slack quat noXML (binaryStart cc ic res ++ (p ++ q))
    let d' := decodeRoot lz slack quat noXML (binaryStart cc ic res ++ (p ++ (u ++ q)))
    d'.result = d.result ∧ (d.result ≠ .panic → d'.warns.length = d.warns.length + 1 ∧
      ∃ k, d'.codecWarns = d.codecWarns.map (CodecWarn.shift k)) :=
  skip_aux lz hlz slack quat noXML cc ic res h p raws hp u raw hu hsig (fun st hr => .inr (hbad st hr)) q

/-- C24: the warning tells the position and the signature of the chunk. -/
theorem C24_warning (slack : Bytes → Nat) (st : LoopState) (raw : Raw) (e : Err)
    (h : decodeBody slack st.groups raw = some (.err e)) :
    ∃ st', stepChunk slack st raw = .ok (st', false) ∧
      st'.warns = st.warns ++ [.chunk st.chunks.length raw.sig e] ∧ st'.groups = st.groups := by
  simp only [stepChunk, h]
  exact ⟨_, rfl, rfl, rfl⟩

/-- Every frame that was written is a complete frame. -/
theorem isFrame_of_write {lz : LZ4} (hlz : lz.Lossless) (c : Raw) (hp : c.payload.length < 2 ^ 32)
    (e : Bytes) (h : rawWrite lz c = .ok e) : IsFrame lz e c := fun s =>
  rawDecode_rawWrite hlz c hp e h s

/-- An unknown chunk and a truncated META chunk meeting the hypotheses of C23 and C24. -/
example : IsFrame LZ4.stored (plainFrame 0 [1, 2, 3]) ⟨0, false, [1, 2, 3]⟩ :=
  isFrame_of_write LZ4.stored_lossless _ (by decide) _ rfl
example : IsFrame LZ4.stored (plainFrame sigMETA [1]) ⟨sigMETA, false, [1]⟩ ∧
    ∀ st : LoopState, ∃ e, decodeBody (fun _ => 0) st.groups ⟨sigMETA, false, [1]⟩ = some (.err e) :=
  ⟨isFrame_of_write LZ4.stored_lossless _ (by decide) _ rfl, fun _ => ⟨_, rfl⟩⟩
example : IsFrames LZ4.stored (plainFrame 0 [1, 2, 3]) [⟨0, false, [1, 2, 3]⟩] := by
  have := IsFrames.cons (b := []) (raws := []) (e := plainFrame 0 [1, 2, 3])
    (isFrame_of_write LZ4.stored_lossless ⟨0, false, [1, 2, 3]⟩ (by decide) _ rfl) (by decide) .nil
  simpa only [List.append_nil] using this

/-! ## C57 -/

/-- The number of warnings about chunks that could not be decoded. -/
def chunkFailures (ws : List Warn) : Nat := ws.countP fun w => match w with
  | .chunk _ _ _ => true
  | _ => false

theorem countType_foldl (raws : List Raw) : ∀ (m : Map Bytes Nat) (k : Bytes),
    ((raws.foldl (fun m r => countType m r.sig) m).get? k).getD 0 =
      (m.get? k).getD 0 + raws.countP fun r => sigString r.sig = k := by
  induction raws with
  | nil => intro m k; simp
  | cons r rs ih =>
    intro m k
    rw [List.foldl_cons, ih, countType, Map.get?_set, List.countP_cons]
    by_cases h : k = sigString r.sig
    · subst h; simp; omega
    · simp [h, Ne.symm h]

theorem runRaws_stats (slack) (raws : List Raw) : ∀ st st' : LoopState,
    runRaws slack st raws = .ok st' →
    st'.stats.classCount = st.stats.classCount ∧ st'.stats.instanceCount = st.stats.instanceCount ∧
    st'.stats.chunks + chunkFailures st'.warns = st.stats.chunks + chunkFailures st.warns + raws.length ∧
    st'.stats.chunkTypes = raws.foldl (fun m r => countType m r.sig) st.stats.chunkTypes := by
  induction raws with
  | nil => intro st st' h; simp [runRaws] at h; subst h; simp
  | cons r rs ih =>
    intro st st' h
    simp only [runRaws, Res.bind_eq_ok] at h
    obtain ⟨⟨st1, f⟩, h1, h2⟩ := h
    obtain ⟨i1, i2, i3, i4⟩ := ih _ _ h2
    have key : st1.stats.classCount = st.stats.classCount ∧
        st1.stats.instanceCount = st.stats.instanceCount ∧
        st1.stats.chunks + chunkFailures st1.warns = st.stats.chunks + chunkFailures st.warns + 1 ∧
        st1.stats.chunkTypes = countType st.stats.chunkTypes r.sig := by
      simp only [stepChunk] at h1
      rcases hb : decodeBody slack st.groups r with _ | ⟨body⟩ | e | _ <;> simp only [hb] at h1
      · cases h1
        refine ⟨rfl, rfl, ?_, rfl⟩
        simp [chunkFailures, List.countP_append]; omega
      · cases h1
        refine ⟨rfl, rfl, ?_, rfl⟩
        simp only [chunkFailures, List.countP_append]
        cases body <;> simp <;> try omega
        (repeat' split) <;> simp <;> omega
      · cases h1
        refine ⟨rfl, rfl, ?_, rfl⟩
        simp [chunkFailures, List.countP_append]; omega
      · cases h1
    obtain ⟨k1, k2, k3, k4⟩ := key
    simp only at i1 i2 i3 i4
    refine ⟨by rw [i1, k1], by rw [i2, k2], ?_, ?_⟩
    · simp only [List.length_cons]; omega
    · rw [i4, k4]; rfl

/-- C57: for a well-framed file the statistics are: the counts of the header; the number of chunks,
those excepted that could not be decoded (each of which has its warning); and for each signature
text the number of chunks with that text (including those that could not be decoded). -/
theorem C57_stats (lz : LZ4) (hlz : lz.Lossless) (slack : Bytes → Nat) (quat : Quat) (noXML : Bool)
    (cc ic : BitVec 32) (res : Bytes) (h : res.length = 8) (rest : Bytes) (raws : List Raw)
    (trailing : Bytes) (hf : Frames lz rest raws trailing) :
    let d := decodeRoot lz slack quat noXML (binaryStart cc ic res ++ rest)
    d.result ≠ .panic →
    d.stats.classCount = cc ∧ d.stats.instanceCount = ic ∧
    d.stats.chunks + chunkFailures d.warns = raws.length ∧
    ∀ text, (d.stats.chunkTypes.get? text).getD 0 = raws.countP fun r => sigString r.sig = text := by
  intro d hnp
  obtain ⟨a1, a2⟩ := decodeRoot_frames hlz (slack := slack) (quat := quat) (noXML := noXML)
    (cc := cc) (ic := ic) h hf
  rcases hr : runRaws slack (loop0 cc ic res) raws with st | e | _
  · have hd : d = decodeOut quat cc ic (st, .ok trailing) := a1 st hr
    rw [hd]
    obtain ⟨r1, r2, r3, r4⟩ := runRaws_stats slack raws _ _ hr
    refine ⟨r1, r2, ?_, fun text => ?_⟩
    · simp only [decodeOut]
      rw [r3]
      simp [loop0, chunkFailures]
    · simp only [decodeOut]
      rw [r4, countType_foldl]
      simp [loop0]
  · exact absurd hr (runRaws_ne_err e)
  · exact absurd (a2 hr) hnp

example : ∀ text, (((decodeRoot LZ4.stored (fun _ => 0) (fun _ _ _ _ => zeroMatrix) false
    (binaryStart 1 2 (List.replicate 8 0#8) ++ exBytes)).stats.chunkTypes.get? text).getD 0) =
      exRaws.countP fun r => sigString r.sig = text :=
  (C57_stats _ LZ4.stored_lossless (fun _ => 0) _ false 1 2 _ (by simp) _ _ _ exFrames
    (by
      have h := (decodeRoot_frames LZ4.stored_lossless (slack := fun _ => 0)
        (quat := fun _ _ _ _ => zeroMatrix) (noXML := false) (cc := 1) (ic := 2)
        (res := List.replicate 8 0#8) (by simp) exFrames).1 _ rfl
      rw [h]; intro hp; cases hp)).2.2.2

end Props

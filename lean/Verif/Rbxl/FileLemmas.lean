import Verif.Rbxl.Insert
/-!
# Whole files
-/
namespace Rbxl
open Go Rbxfile

/-! ### the start of the file -/

theorem le16_mk16 (b0 b1 : Byte) : le16 (mk16 b0 b1) = [b0, b1] := by
  have h : ∀ a b : Byte, a.toNat = b.toNat → a = b := fun a b => BitVec.eq_of_toNat_eq
  simp only [le16, List.cons.injEq, and_true]
  have := b0.isLt; have := b1.isLt
  refine ⟨h _ _ ?_, h _ _ ?_⟩ <;>
    simp only [BitVec.toNat_setWidth, BitVec.toNat_ushiftRight, mk16_toNat, Nat.shiftRight_eq_div_pow] <;> omega

theorem readStart_binary_iff (noXML : Bool) (b : Bytes) (cc ic : BitVec 32) (res rest : Bytes) :
    readStart noXML b = .ok (.binary cc ic res rest) ↔
      b = robloxSig ++ binaryMarker ++ binaryHeader ++ le16 0 ++ le32 cc ++ le32 ic ++ res ++ rest ∧
      res.length = 8 := by
  constructor
  · intro h
    simp only [readStart, Res.bind_eq_ok] at h
    obtain ⟨⟨sg, r0⟩, h0, h⟩ := h
    obtain ⟨rfl, hl⟩ := takeN_ok h0
    simp only at h
    split at h
    · cases h
    rename_i hs
    split at h
    · split at h <;> cases h
    rename_i hm
    simp only [Res.bind_eq_ok] at h
    obtain ⟨⟨hd, r1⟩, h1, h⟩ := h
    obtain ⟨rfl, _⟩ := takeN_ok h1
    simp only at h
    split at h
    · cases h
    rename_i hh
    simp only [Res.bind_eq_ok] at h
    obtain ⟨⟨v, r2⟩, h2, h⟩ := h
    simp only at h
    split at h
    · cases h
    rename_i hv
    simp only [Res.bind_eq_ok, Res.pure_eq, Res.ok.injEq, Start.binary.injEq] at h
    obtain ⟨⟨c, r3⟩, h3, ⟨i, r4⟩, h4, ⟨rs, r5⟩, h5, rfl, rfl, rfl, rfl⟩ := h
    have e2 : r1 = le16 v ++ r2 := by
      simp only [num16] at h2
      split at h2
      · cases h2
      · match r1, h2 with
        | b0 :: b1 :: t, h =>
          simp only [readLe16, Res.ok.injEq, Prod.mk.injEq] at h
          obtain ⟨rfl, rfl⟩ := h
          simp [le16_mk16]
    have e3 := num32_ok h3
    have e4 := num32_ok h4
    obtain ⟨e5, e6⟩ := takeN_ok h5
    simp only [ne_eq, Decidable.not_not] at hs hm hh hv
    simp only at e3 e4 e5
    refine ⟨?_, e6⟩
    have esg : sg = robloxSig ++ binaryMarker := by rw [← hs, ← hm, List.take_append_drop]
    rw [esg, hh, e2, hv, e3, e4, e5]
    simp [List.append_assoc]
  · rintro ⟨rfl, h⟩
    have e : robloxSig ++ binaryMarker ++ binaryHeader ++ le16 0 ++ le32 cc ++ le32 ic ++ res ++ rest
        = (robloxSig ++ binaryMarker) ++ (binaryHeader ++ (le16 0 ++
        (le32 cc ++ (le32 ic ++ (res ++ rest))))) := by simp only [List.append_assoc]
    rw [e]
    simp only [readStart]
    rw [takeN_app (by decide)]
    simp only [Res.ok_bind]
    rw [if_neg (by decide), if_neg (by decide), takeN_app (by decide)]
    simp only [Res.ok_bind]
    rw [if_neg (by simp), num16_app]
    simp only [Res.ok_bind]
    rw [if_neg (by simp), num32_app]
    simp only [Res.ok_bind, num32_app]
    rw [takeN_app h]
    simp

theorem readStart_xml_iff (noXML : Bool) (b c : Bytes) :
    readStart noXML b = .ok (.xml c) ↔ c = b ∧ noXML = false ∧ 8 ≤ b.length ∧
      b.take 7 = robloxSig ∧ (b.take 8).drop 7 ≠ binaryMarker := by
  simp only [readStart, takeN]
  by_cases hl : b.length < 8
  · simp [hl]; omega
  · simp only [hl, if_false, Res.ok_bind]
    have h7 : (b.take 8).take 7 = b.take 7 := by simp [List.take_take]
    rw [h7]
    by_cases hs : b.take 7 = robloxSig
    · simp only [hs, ne_eq, not_true_eq_false, if_false, true_and]
      by_cases hm : (b.take 8).drop 7 = binaryMarker
      · simp only [hm, not_true_eq_false, if_false, and_false, iff_false]
        intro h
        simp only [Res.bind_eq_ok] at h
        obtain ⟨⟨hd, r1⟩, h1, h⟩ := h
        simp only at h
        split at h
        · cases h
        simp only [Res.bind_eq_ok] at h
        obtain ⟨⟨v, r2⟩, h2, h⟩ := h
        simp only at h
        split at h
        · cases h
        simp only [Res.bind_eq_ok, Res.pure_eq, Res.ok.injEq] at h
        obtain ⟨⟨c, r3⟩, h3, ⟨i, r4⟩, h4, ⟨rs, r5⟩, h5, h⟩ := h
        cases h
      · simp only [hm, not_false_eq_true, if_true]
        cases noXML
        · simp only [Bool.false_eq_true, if_false, Res.ok.injEq, Start.xml.injEq,
            List.take_append_drop, true_and, and_true]
          exact ⟨fun h => ⟨h.symm, by omega⟩, fun h => h.1.symm⟩
        · simp
    · simp [hs]

theorem takeN_ne_panic (n : Nat) (b : Bytes) : takeN n b ≠ .panic := by
  simp only [takeN]; split <;> simp
theorem num16_ne_panic (b : Bytes) : num16 b ≠ .panic := by
  simp only [num16]
  split
  · simp
  · match b with
    | _ :: _ :: _ => simp [readLe16]
    | [_] => simp at *
    | [] => simp at *
theorem num32_ne_panic (b : Bytes) : num32 b ≠ .panic := by
  simp only [num32]
  split
  · simp
  · match b with
    | _ :: _ :: _ :: _ :: _ => simp [readLe32]
    | [_, _, _] => simp at *
    | [_, _] => simp at *
    | [_] => simp at *
    | [] => simp at *

theorem readStart_ne_panic (noXML : Bool) (b : Bytes) : readStart noXML b ≠ .panic := by
  unfold readStart
  refine Res.bind_ne_panic (takeN_ne_panic _ _) fun a _ => ?_
  dsimp only
  split
  · simp
  split
  · split <;> simp
  refine Res.bind_ne_panic (takeN_ne_panic _ _) fun a _ => ?_
  split
  · simp
  refine Res.bind_ne_panic (num16_ne_panic _) fun a _ => ?_
  split
  · simp
  refine Res.bind_ne_panic (num32_ne_panic _) fun a _ => ?_
  refine Res.bind_ne_panic (num32_ne_panic _) fun a _ => ?_
  refine Res.bind_ne_panic (takeN_ne_panic _ _) fun a _ => ?_
  simp

/-! ### writing and reading a list of chunks -/

/-- `groupLookup` after a chunk at position `i`. -/
def groupsAfter (g : Map (BitVec 32) (Nat × InstChunk)) (i : Nat) : Body →
    Map (BitVec 32) (Nat × InstChunk)
  | .inst c => g.set c.classID (i, c.canon)
  | _ => g

/-- Chunks that the encoder can write and the decoder reads back: each fits into the format, and
exactly the last one is an END chunk. `g` is the group table before position `i`. -/
def GoodChunks (g : Map (BitVec 32) (Nat × InstChunk)) (i : Nat) : List Chunk → Prop
  | [] => False
  | [c] => ∃ content : Bytes, c.body = .end_ content ∧ content.length < 2 ^ 32
  | c :: cs => c.body.Good g ∧ c.body.sig ≠ sigEND ∧
      (∀ e, c.body.payload = .ok e → e.length < 2 ^ 32) ∧
      GoodChunks (groupsAfter g i c.body) (i + 1) cs

/-- `groupLookup` after a list of chunks. -/
def groupsOf (g : Map (BitVec 32) (Nat × InstChunk)) : Nat → List Chunk →
    Map (BitVec 32) (Nat × InstChunk)
  | _, [] => g
  | i, c :: cs => groupsOf (groupsAfter g i c.body) (i + 1) cs

/-- The chunk read back. -/
def Chunk.back (u : Bool) (c : Chunk) : Chunk := ⟨c.body.canon, if u then false else c.compressed⟩

/-- Warnings when reading back. -/
def backWarns (u : Bool) (i : Nat) (c : Chunk) : List Warn :=
  match c.body with
  | .unknown s _ => [.unknownSig i s]
  | .end_ content => (if (if u then false else c.compressed) then [.endCompressed] else []) ++
      (if content ≠ endTag then [.endContent] else [])
  | _ => []

/-- The loop state after reading back a chunk. -/
def LoopState.after (u : Bool) (st : LoopState) (c : Chunk) : LoopState :=
  { chunks := st.chunks ++ [c.back u]
    groups := groupsAfter st.groups st.chunks.length c.body
    warns := st.warns ++ backWarns u st.chunks.length c
    stats := { st.stats with
      chunks := st.stats.chunks + 1
      chunkTypes := countType st.stats.chunkTypes c.body.sig } }

theorem stepChunk_good (slack) (u : Bool) (st : LoopState) (c : Chunk) (h : c.body.Good st.groups)
    (e : Bytes) (he : c.body.payload = .ok e) :
    ∃ f, stepChunk slack st ⟨c.body.sig, if u then false else c.compressed, e⟩ =
      .ok (st.after u c, f) := by
  obtain ⟨e', h1, h2⟩ := decodeBody_payload slack st.groups c.body h (if u then false else c.compressed)
  rw [he] at h1; cases h1
  obtain ⟨body, comp⟩ := c
  rcases h2 with ⟨s, h2, h3⟩ | ⟨h2, h3⟩
  · simp only at h2; subst h2
    refine ⟨false, ?_⟩
    simp only [stepChunk]
    simp only at h3
    rw [h3]
    rfl
  · simp only [stepChunk]
    simp only at h3 h2 h
    rw [h3]
    cases body with
    | unknown s p => exact absurd rfl (h2 s p)
    | errored s p => exact h.elim
    | _ => exact ⟨_, rfl⟩

theorem writeChunks_cons {lz : LZ4} {u c cs b} (h : writeChunks lz u (c :: cs) = .ok b) :
    ∃ e x y, c.body.payload = .ok e ∧
      rawWrite lz ⟨c.body.sig, if u then false else c.compressed, e⟩ = .ok x ∧
      writeChunks lz u cs = .ok y ∧ b = x ++ y := by
  simp only [writeChunks, writeChunk, Res.bind_eq_ok, Res.pure_eq, Res.ok.injEq] at h
  obtain ⟨x, ⟨e, h1, h2⟩, y, h3, rfl⟩ := h
  exact ⟨e, x, y, h1, h2, h3, rfl⟩

theorem goodChunks_read {lz : LZ4} (hlz : lz.Lossless) (slack) (u : Bool) (trailing : Bytes) :
    ∀ (cs : List Chunk) (g) (i : Nat), GoodChunks g i cs → ∀ b, writeChunks lz u cs = .ok b →
    ∃ raws, Frames lz (b ++ trailing) raws trailing ∧
      ∀ st : LoopState, st.groups = g → st.chunks.length = i →
      ∃ st', runRaws slack st raws = .ok st' ∧ st'.chunks = st.chunks ++ cs.map (Chunk.back u) ∧
        st'.groups = groupsOf g i cs ∧
        st'.warns = st.warns ++ (cs.zipIdx i).flatMap (fun c => backWarns u c.2 c.1) ∧
        st'.stats = { st.stats with
          chunks := st.stats.chunks + cs.length
          chunkTypes := cs.foldl (fun m c => countType m c.body.sig) st.stats.chunkTypes } := by
  intro cs
  induction cs with
  | nil => intro g i h; exact h.elim
  | cons c cs ih =>
    intro g i h b hb
    obtain ⟨e, x, y, h1, h2, h3, rfl⟩ := writeChunks_cons hb
    cases cs with
    | nil =>
      obtain ⟨content, hc, hlen⟩ := h
      have he : e = content := by rw [hc] at h1; simp [Body.payload] at h1; exact h1.symm
      subst he
      simp only [writeChunks, Res.ok.injEq] at h3
      subst h3
      refine ⟨[⟨c.body.sig, if u then false else c.compressed, e⟩], .last ?_ (by simp [hc, Body.sig]), ?_⟩
      · rw [List.append_nil]
        exact rawDecode_rawWrite hlz _ hlen _ h2 _
      · rintro st rfl rfl
        have hgood : c.body.Good st.groups := by rw [hc]; trivial
        obtain ⟨f, hs⟩ := stepChunk_good slack u st c hgood e h1
        refine ⟨st.after u c, by simp only [runRaws, hs, Res.ok_bind], rfl, rfl, ?_, rfl⟩
        simp [LoopState.after]
    | cons c' cs' =>
      obtain ⟨hg, hne, hlen, hrest⟩ := h
      obtain ⟨raws, hf, hr⟩ := ih _ _ hrest y h3
      refine ⟨⟨c.body.sig, if u then false else c.compressed, e⟩ :: raws, ?_, ?_⟩
      · rw [List.append_assoc]
        exact .cons (rawDecode_rawWrite hlz _ (hlen e h1) _ h2 _) hne hf
      · rintro st rfl rfl
        obtain ⟨f, hs⟩ := stepChunk_good slack u st c hg e h1
        obtain ⟨st', g1, g2, g3, g4, g5⟩ := hr (st.after u c) rfl (by simp [LoopState.after])
        refine ⟨st', ?_, ?_, ?_, ?_, ?_⟩
        · simp only [runRaws, hs, Res.ok_bind]; exact g1
        · rw [g2]; simp [LoopState.after]
        · rw [g3]; rfl
        · rw [g4]; simp [List.zipIdx_cons, LoopState.after]
        · rw [g5]; simp [LoopState.after, Nat.add_comm, Nat.add_left_comm]

/-! ### warnings that were there before -/

/-- The loop state with warnings in front. -/
def LoopState.warn (w : List Warn) (st : LoopState) : LoopState := { st with warns := w ++ st.warns }

theorem stepChunk_warn (slack) (w) (st : LoopState) (raw : Raw) :
    stepChunk slack (st.warn w) raw = (do let (st', f) ← stepChunk slack st raw; pure (st'.warn w, f)) := by
  simp only [stepChunk, LoopState.warn]
  rcases decodeBody slack st.groups raw with _ | ⟨body⟩ | e | _ <;> simp

theorem decodeChunks_warn {lz : LZ4} {slack} (w) : ∀ (fuel : Nat) (st) (b : Bytes),
    decodeChunks lz slack fuel (st.warn w) b =
      ((decodeChunks lz slack fuel st b).1.warn w, (decodeChunks lz slack fuel st b).2) := by
  intro fuel
  induction fuel with
  | zero => intro st b; rfl
  | succ fuel ih =>
    intro st b
    simp only [decodeChunks]
    rcases rawDecode lz b with ⟨raw, rest⟩ | e | _
    · simp only [stepChunk_warn]
      rcases stepChunk slack st raw with ⟨st1, _ | _⟩ | e | _
      · simpa using ih st1 rest
      · rfl
      · rfl
      · rfl
    · rfl
    · rfl

/-! ### the codec and compression -/

theorem codecLoop_strip (quat) (f f' : FormatModel) (h1 : f'.classCount = f.classCount)
    (h2 : f'.instanceCount = f.instanceCount) (h3 : f'.groupLookup = f.groupLookup) :
    ∀ (cs cs' : List Chunk), cs'.map Chunk.body = cs.map Chunk.body → ∀ (ic : Nat) (st : DecState),
    codecLoop quat f' ic cs' st = codecLoop quat f ic cs st := by
  intro cs
  induction cs with
  | nil => intro cs' h; cases cs' <;> simp_all [codecLoop]
  | cons c cs ih =>
    intro cs' h ic st
    cases cs' with
    | nil => simp at h
    | cons c' cs' =>
      simp only [List.map_cons, List.cons.injEq] at h
      have hs : codecStep quat f' ic st c'.body = codecStep quat f ic st c.body := by
        rw [h.1]
        cases c.body <;> simp only [codecStep, h1, h2, h3]
      simp only [codecLoop, hs]
      split
      · exact ih _ h.2 _ _
      · rfl

theorem codecDecode_strip (quat) (f f' : FormatModel) (h1 : f'.classCount = f.classCount)
    (h2 : f'.instanceCount = f.instanceCount) (h3 : f'.groupLookup = f.groupLookup)
    (h : f'.chunks.map Chunk.body = f.chunks.map Chunk.body) :
    codecDecode quat f' = codecDecode quat f := by
  simp only [codecDecode, codecLoop_strip quat f f' h1 h2 h3 f.chunks f'.chunks h]

end Rbxl

namespace Rbxl
open Go Rbxfile

/-! ### decoding files -/

/-- The bytes a binary file starts with. -/
def binaryStart (cc ic : BitVec 32) (reserved : Bytes) : Bytes :=
  str "<roblox!" ++ [0x89, 0xff, 0x0D, 0x0A, 0x1A, 0x0A] ++ [0, 0] ++ le32 cc ++ le32 ic ++ reserved

theorem binaryStart_eq (cc ic : BitVec 32) (res : Bytes) : binaryStart cc ic res =
    robloxSig ++ binaryMarker ++ binaryHeader ++ le16 0 ++ le32 cc ++ le32 ic ++ res := by
  have : str "<roblox!" ++ [0x89, 0xff, 0x0D, 0x0A, 0x1A, 0x0A] ++ [0, 0] =
    robloxSig ++ binaryMarker ++ binaryHeader ++ le16 0 := by decide
  simp only [binaryStart, this]

theorem readStart_start {noXML : Bool} {cc ic : BitVec 32} {res : Bytes} (h : res.length = 8)
    (rest : Bytes) :
    readStart noXML (binaryStart cc ic res ++ rest) = .ok (.binary cc ic res rest) := by
  rw [readStart_binary_iff, binaryStart_eq]
  exact ⟨rfl, h⟩

/-- The state of the chunk loop at the start. -/
def loop0 (cc ic : BitVec 32) (res : Bytes) : LoopState := {
  warns := if res ≠ List.replicate 8 0#8 then [.reserve res] else []
  stats := { classCount := cc, instanceCount := ic } }

/-- The result of `Decoder.Decode` from the outcome of the chunk loop. -/
def decodeOut (quat : Quat) (cc ic : BitVec 32) (out : LoopState × Res Bytes) : DecodeOut :=
  match out.2 with
  | .panic => ⟨out.1.warns, [], out.1.stats, .panic⟩
  | .err e => ⟨out.1.warns, [], out.1.stats, .err e⟩
  | .ok trailing =>
    let r := codecDecode quat ⟨0, cc, ic, out.1.chunks, trailing, out.1.groups⟩
    ⟨out.1.warns, r.1, out.1.stats, do let (h, root) ← r.2; pure (.tree h root)⟩

theorem decodeRoot_start {lz slack quat noXML} {cc ic : BitVec 32} {res : Bytes} (h : res.length = 8)
    (rest : Bytes) :
    decodeRoot lz slack quat noXML (binaryStart cc ic res ++ rest) =
      decodeOut quat cc ic (decodeChunks lz slack (rest.length + 1) (loop0 cc ic res) rest) := by
  simp only [decodeRoot, decodeFile, readStart_start h, decodeOut, loop0, Bool.false_eq_true,
    if_false]
  rcases decodeChunks lz slack (rest.length + 1) _ rest with ⟨st, _ | _ | _⟩ <;> rfl

theorem decodeRoot_frames {lz : LZ4} (hlz : lz.Lossless) {slack quat noXML} {cc ic : BitVec 32}
    {res : Bytes} (h : res.length = 8) {rest raws trailing} (hf : Frames lz rest raws trailing) :
    (∀ st, runRaws slack (loop0 cc ic res) raws = .ok st →
      decodeRoot lz slack quat noXML (binaryStart cc ic res ++ rest) =
        decodeOut quat cc ic (st, .ok trailing)) ∧
    (runRaws slack (loop0 cc ic res) raws = .panic →
      (decodeRoot lz slack quat noXML (binaryStart cc ic res ++ rest)).result = .panic) := by
  obtain ⟨h1, h2⟩ := decodeChunks_frames (slack := slack) hf hlz (rest.length + 1) (loop0 cc ic res)
    (by omega)
  refine ⟨fun st hs => ?_, fun hs => ?_⟩
  · rw [decodeRoot_start h, h1 st hs]
  · rw [decodeRoot_start h, decodeOut, h2 hs]

/-- The codec does not look at the bytes after the END chunk. -/
theorem codecDecode_trailing (quat) (f : FormatModel) (t : Bytes) :
    codecDecode quat { f with trailing := t } = codecDecode quat f :=
  codecDecode_strip quat f _ rfl rfl rfl rfl

theorem decompress_frames {lz : LZ4} (hlz : lz.Lossless) {noXML} {cc ic : BitVec 32}
    {res : Bytes} (h : res.length = 8) {rest raws trailing} (hf : Frames lz rest raws trailing) :
    decompress lz noXML (binaryStart cc ic res ++ rest) =
      ((loop0 cc ic res).warns, .ok (binaryStart cc ic (List.replicate 8 0#8) ++
        raws.flatMap (fun r => plainFrame r.sig r.payload) ++ trailing)) := by
  have hd := decompressChunks_frames hf hlz (rest.length + 1) (loop0 cc ic res) (by omega)
  obtain ⟨h1, h2, h3, h4⟩ := foldl_addRaw raws (loop0 cc ic res)
  have e : decodeFile lz (fun _ => 0) noXML true (binaryStart cc ic res ++ rest) =
      ((loop0 cc ic res).warns, (raws.foldl addRaw (loop0 cc ic res)).stats,
        .ok (.model ⟨0, cc, ic, raws.map (fun r => ⟨.unknown r.sig r.payload, r.compressed⟩),
          trailing, []⟩)) := by
    simp only [decodeFile, readStart_start h]
    have hd' := hd
    simp only [loop0] at hd'
    simp only [if_true, hd']
    have h1' := h1; have h2' := h2; have h3' := h3
    simp only [loop0] at h1' h2' h3'
    rw [h1', h2', h3']
    rfl
  have hw : encodeWarns true true ⟨0, cc, ic,
      raws.map (fun r => ⟨.unknown r.sig r.payload, r.compressed⟩), trailing, []⟩ = [] := by
    have : ∀ n i (rs : List Raw), encodeWarnsAux true true n i
        (rs.map (fun r => ⟨.unknown r.sig r.payload, r.compressed⟩)) = [] := by
      intro n i rs
      induction rs generalizing i with
      | nil => rfl
      | cons r rs ih => simp [encodeWarnsAux, ih]
    exact this _ _ _
  have ee : encodeFile lz true ⟨0, cc, ic,
      raws.map (fun r => ⟨.unknown r.sig r.payload, r.compressed⟩), trailing, []⟩ =
      .ok (binaryStart cc ic (List.replicate 8 0#8) ++
        raws.flatMap (fun r => plainFrame r.sig r.payload) ++ trailing) := by
    simp only [encodeFile, writeChunks_plain, Res.ok_bind, Res.pure_eq]
    have : le64 0 = List.replicate 8 0#8 := by decide
    rw [fileHeader, this, ← binaryStart_eq]
  simp only [decompress, e, hw, ee, List.append_nil]

theorem decompress_ok {lz : LZ4} {noXML b ws out} (h : decompress lz noXML b = (ws, .ok out)) :
    ∃ cc ic res rest raws trailing, b = binaryStart cc ic res ++ rest ∧ res.length = 8 ∧
      Frames lz rest raws trailing := by
  simp only [decompress, decodeFile] at h
  rcases hs : readStart noXML b with ⟨c⟩ | e | _
  · cases c with
    | xml c => simp [hs] at h
    | binary cc ic res rest =>
      simp only [hs, if_true] at h
      rcases hd : decompressChunks lz (rest.length + 1) (loop0 cc ic res) rest with ⟨st, r⟩
      have hd' := hd
      simp only [loop0] at hd'
      rw [hd'] at h
      cases r with
      | ok t =>
        obtain ⟨raws, hf, _⟩ := decompressChunks_ok hd
        have hb := (readStart_binary_iff noXML b cc ic res rest).1 hs
        rw [← binaryStart_eq] at hb
        exact ⟨cc, ic, res, rest, raws, t, hb.1, hb.2, hf⟩
      | err e => simp at h
      | panic => simp at h
  · simp [hs] at h
  · simp [hs] at h

end Rbxl

namespace Rbxl
open Go

theorem shiftGroups_id {k : Nat} {g : Map (BitVec 32) (Nat × InstChunk)}
    (h : ∀ e ∈ g, e.2.1 < k) : shiftGroups k g = g := by
  unfold shiftGroups
  conv => rhs; rw [← List.map_id g]
  apply List.map_congr_left
  intro e he
  obtain ⟨a, i, c⟩ := e
  have := h _ he
  simp only at this
  simp [shift, this]

theorem mem_set {g : Map (BitVec 32) (Nat × InstChunk)} {c v e} (h : e ∈ g.set c v) :
    e ∈ g ∨ e = (c, v) := by
  induction g with
  | nil => simp [Map.set] at h; exact .inr h
  | cons a g ih =>
    obtain ⟨k, x⟩ := a
    simp only [Map.set] at h
    split at h
    · rcases List.mem_cons.1 h with h | h
      · exact .inr h
      · exact .inl (List.mem_cons_of_mem _ h)
    · rcases List.mem_cons.1 h with h | h
      · exact .inl (by rw [h]; simp)
      · rcases ih h with h | h
        · exact .inl (List.mem_cons_of_mem _ h)
        · exact .inr h

theorem groups_lt_aux {slack} : ∀ (raws : List Raw) (st st' : LoopState),
    runRaws slack st raws = .ok st' → (∀ e ∈ st.groups, e.2.1 < st.chunks.length) →
    ∀ e ∈ st'.groups, e.2.1 < st'.chunks.length := by
  intro raws
  induction raws with
  | nil => intro st st' h; simp [runRaws] at h; subst h; exact id
  | cons r rs ih =>
    intro st st' h hw
    simp only [runRaws, Res.bind_eq_ok] at h
    obtain ⟨⟨st1, f⟩, h1, h2⟩ := h
    refine ih _ _ h2 ?_
    simp only [stepChunk] at h1
    rcases hb : decodeBody slack st.groups r with _ | ⟨body⟩ | e | _ <;> simp only [hb] at h1
    · cases h1
      intro e he; have := hw e he; simp; omega
    · cases h1
      intro e he
      simp only [List.length_append, List.length_singleton]
      cases body with
      | inst c =>
        rcases mem_set he with he | rfl
        · have := hw e he; omega
        · simp
      | _ => have := hw e he; omega
    · cases h1
      intro e he; have := hw e he; simp; omega
    · cases h1

/-- The positions in the group table are positions of chunks read so far. -/
theorem groups_lt {slack} (raws : List Raw) (st st' : LoopState)
    (h : runRaws slack st raws = .ok st') (hw : ∀ e ∈ st.groups, e.2.1 < st.chunks.length) :
    shiftGroups st'.chunks.length st'.groups = st'.groups :=
  shiftGroups_id (groups_lt_aux raws st st' h hw)

end Rbxl

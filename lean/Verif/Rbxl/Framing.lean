import Verif.Rbxl.ModelLemmas
/-!
# Streams of frames
-/
namespace Rbxl
open Go

/-- `Frames lz b raws rest`: the bytes `b` start with the frames `raws`, of which exactly the last
one is an END chunk, and are followed by `rest`. -/
inductive Frames (lz : LZ4) : Bytes → List Raw → Bytes → Prop
  | last {b raw rest} : rawDecode lz b = .ok (raw, rest) → raw.sig = sigEND → Frames lz b [raw] rest
  | cons {b raw b' raws rest} : rawDecode lz b = .ok (raw, b') → raw.sig ≠ sigEND →
      Frames lz b' raws rest → Frames lz b (raw :: raws) rest

theorem Frames.append {lz : LZ4} {b raws rest} (h : Frames lz b raws rest) :
    ∃ c, b = c ++ rest ∧ ∀ s, Frames lz (c ++ s) raws s := by
  induction h with
  | last h1 h2 =>
    obtain ⟨c, e, hs⟩ := stable_rawDecode lz _ _ _ h1
    exact ⟨c, e, fun s => .last (hs s) h2⟩
  | cons h1 h2 _ ih =>
    obtain ⟨c, e, hs⟩ := stable_rawDecode lz _ _ _ h1
    obtain ⟨c', e', hs'⟩ := ih
    refine ⟨c ++ c', by rw [e, e', List.append_assoc], fun s => ?_⟩
    rw [List.append_assoc]
    exact .cons (hs _) h2 (hs' s)

theorem Frames.det {lz : LZ4} {b raws rest raws' rest'} (h : Frames lz b raws rest)
    (h' : Frames lz b raws' rest') : raws = raws' ∧ rest = rest' := by
  induction h generalizing raws' rest' with
  | last h1 h2 =>
    cases h' with
    | last h3 h4 => rw [h1] at h3; cases h3; exact ⟨rfl, rfl⟩
    | cons h3 h4 _ => rw [h1] at h3; cases h3; exact absurd h2 h4
  | cons h1 h2 _ ih =>
    cases h' with
    | last h3 h4 => rw [h1] at h3; cases h3; exact absurd h4 h2
    | cons h3 h4 h5 =>
      rw [h1] at h3; cases h3
      obtain ⟨rfl, rfl⟩ := ih h5
      exact ⟨rfl, rfl⟩

theorem Frames.payload_lt {lz : LZ4} (hlz : lz.Lossless) {b raws rest} (h : Frames lz b raws rest) :
    ∀ r ∈ raws, r.payload.length < 2 ^ 32 := by
  induction h with
  | last h1 h2 => simpa using (rawDecode_ok hlz h1).1
  | cons h1 h2 _ ih => simpa using ⟨(rawDecode_ok hlz h1).1, ih⟩

/-- The bytes of an uncompressed frame. -/
def plainFrame (sig : BitVec 32) (payload : Bytes) : Bytes :=
  le32 sig ++ (le32 0 ++ (le32 (len32 payload) ++ (le32 0 ++ payload)))

theorem rawDecode_plainFrame {lz : LZ4} {sig : BitVec 32} {payload : Bytes}
    (hp : payload.length < 2 ^ 32) (r : Bytes) :
    rawDecode lz (plainFrame sig payload ++ r) = .ok (⟨sig, false, payload⟩, r) := by
  have := rawDecode_frame (lz := lz) (sig := sig) hp r
  simpa only [plainFrame, List.append_assoc] using this

/-- The same raw chunk, not compressed. -/
def Raw.strip (r : Raw) : Raw := { r with compressed := false }

theorem Frames.plain {lz : LZ4} (hlz : lz.Lossless) {b raws rest} (h : Frames lz b raws rest)
    (s : Bytes) :
    Frames lz (raws.flatMap (fun r => plainFrame r.sig r.payload) ++ s) (raws.map Raw.strip) s := by
  induction h with
  | last h1 h2 =>
    have := (rawDecode_ok hlz h1).1
    refine .last ?_ h2
    simp [rawDecode_plainFrame this, Raw.strip]
  | cons h1 h2 _ ih =>
    have := (rawDecode_ok hlz h1).1
    refine .cons ?_ h2 ih
    rw [List.flatMap_cons, List.append_assoc, rawDecode_plainFrame this]; rfl

/-! ### the loops in terms of frames -/

/-- Run the loop body over raw chunks. -/
def runRaws (slack : Bytes → Nat) : LoopState → List Raw → Res LoopState
  | st, [] => .ok st
  | st, r :: rs => do
    let (st, _) ← stepChunk slack st r
    runRaws slack st rs

theorem decodeBody_end (slack g) (raw : Raw) (h : raw.sig = sigEND) :
    decodeBody slack g raw = some (.ok (.end_ raw.payload)) := by
  simp [decodeBody, h, sigPROP, sigINST, sigMETA, sigSSTR, sigPRNT, sigEND, decodeEnd, takeAll]

theorem decodeBody_not_end (slack g) (raw : Raw) (h : raw.sig ≠ sigEND) (c : Bytes) :
    decodeBody slack g raw ≠ some (.ok (.end_ c)) := by
  simp only [decodeBody]
  repeat' split
  all_goals first
    | contradiction
    | (intro hh; simp only [Option.some.injEq, Res.bind_eq_ok] at hh
       obtain ⟨_, _, hh⟩ := hh; cases hh)
    | simp

/-- The loop stops at the END chunk and only there; it never returns an error by itself. -/
theorem stepChunk_flag {slack st raw} :
    (∀ st' f, stepChunk slack st raw = .ok (st', f) → f = decide (raw.sig = sigEND)) ∧
    ∀ e, stepChunk slack st raw ≠ .err e := by
  by_cases h : raw.sig = sigEND
  · simp only [stepChunk, decodeBody_end slack _ raw h]
    constructor
    · intro st' f hf
      simp only [Res.ok.injEq, Prod.mk.injEq] at hf
      simp [h, hf.2.symm]
    · simp
  · have hne := decodeBody_not_end slack st.groups raw h
    simp only [stepChunk]
    split
    · simp [h]
    · simp
    · simp [h]
    · rename_i body heq
      constructor
      · intro st' f hf
        simp only [Res.ok.injEq, Prod.mk.injEq] at hf
        rw [← hf.2]
        cases body <;> simp_all
      · simp

theorem decodeChunks_frames {lz : LZ4} {slack} {b raws rest} (h : Frames lz b raws rest) :
    ∀ (_ : lz.Lossless) (fuel : Nat) (st : LoopState), b.length < fuel →
      (∀ st', runRaws slack st raws = .ok st' → decodeChunks lz slack fuel st b = (st', .ok rest)) ∧
      (runRaws slack st raws = .panic → (decodeChunks lz slack fuel st b).2 = .panic) := by
  induction h with
  | @last b raw rest h1 h2 =>
    intro hlz fuel st hf
    cases fuel with
    | zero => omega
    | succ fuel =>
      simp only [decodeChunks, h1, runRaws]
      have hfl := stepChunk_flag (slack := slack) (st := st) (raw := raw)
      rcases hs : stepChunk slack st raw with ⟨st1, f⟩ | e | _
      · have := hfl.1 _ _ hs; simp [h2] at this; subst this; simp
      · exact absurd hs (hfl.2 e)
      · simp
  | @cons b raw b' raws rest h1 h2 h3 ih =>
    intro hlz fuel st hf
    cases fuel with
    | zero => omega
    | succ fuel =>
      simp only [decodeChunks, h1, runRaws]
      have hlen := (rawDecode_ok hlz h1).2
      have hfl := stepChunk_flag (slack := slack) (st := st) (raw := raw)
      rcases hs : stepChunk slack st raw with ⟨st1, f⟩ | e | _
      · have := hfl.1 _ _ hs; simp [h2] at this; subst this
        simpa using ih hlz fuel st1 (by omega)
      · exact absurd hs (hfl.2 e)
      · simp

theorem runRaws_ne_err {slack st raws} (e : Err) : runRaws slack st raws ≠ .err e := by
  induction raws generalizing st with
  | nil => simp [runRaws]
  | cons r rs ih =>
    simp only [runRaws]
    have := (stepChunk_flag (slack := slack) (st := st) (raw := r)).2 e
    rcases hs : stepChunk slack st r with ⟨st1, f⟩ | e' | _
    · simpa using ih
    · simp; rintro rfl; exact this hs
    · simp

theorem decodeChunks_ok {lz : LZ4} {slack} : ∀ {fuel st b st' rest},
    decodeChunks lz slack fuel st b = (st', .ok rest) →
    ∃ raws, Frames lz b raws rest ∧ runRaws slack st raws = .ok st' := by
  intro fuel
  induction fuel with
  | zero => intro st b st' rest h; simp [decodeChunks] at h
  | succ fuel ih =>
    intro st b st' rest h
    simp only [decodeChunks] at h
    rcases hr : rawDecode lz b with ⟨raw, b'⟩ | e | _ <;> simp only [hr] at h
    · rcases hs : stepChunk slack st raw with ⟨st1, f⟩ | e | _ <;> simp only [hs] at h
      · have hfl := (stepChunk_flag (slack := slack) (st := st) (raw := raw)).1 _ _ hs
        cases f
        · simp only at h
          obtain ⟨raws, h1, h2⟩ := ih h
          exact ⟨raw :: raws, .cons hr (by simpa using hfl) h1, by simp [runRaws, hs, h2]⟩
        · simp only [Prod.mk.injEq, Res.ok.injEq] at h
          obtain ⟨rfl, rfl⟩ := h
          exact ⟨[raw], .last hr (by simpa using hfl), by simp [runRaws, hs]⟩
      · simp at h
      · simp at h
    · simp at h
    · simp at h

/-- What the decompressing loop adds for one raw chunk. -/
def addRaw (st : LoopState) (raw : Raw) : LoopState :=
  { st with
    chunks := st.chunks ++ [⟨.unknown raw.sig raw.payload, raw.compressed⟩]
    stats := { st.stats with
      chunkTypes := countType st.stats.chunkTypes raw.sig
      chunks := st.stats.chunks + 1 } }

theorem decompressChunks_frames {lz : LZ4} {b raws rest} (h : Frames lz b raws rest) :
    ∀ (_ : lz.Lossless) (fuel : Nat) (st : LoopState), b.length < fuel →
      decompressChunks lz fuel st b = (raws.foldl addRaw st, .ok rest) := by
  induction h with
  | @last b raw rest h1 h2 =>
    intro hlz fuel st hf
    cases fuel with
    | zero => omega
    | succ fuel => simp [decompressChunks, h1, h2, addRaw]
  | @cons b raw b' raws rest h1 h2 h3 ih =>
    intro hlz fuel st hf
    cases fuel with
    | zero => omega
    | succ fuel =>
      have hlen := (rawDecode_ok hlz h1).2
      simp only [decompressChunks, h1, h2, if_false, List.foldl_cons]
      exact ih hlz fuel _ (by omega)

theorem decompressChunks_ok {lz : LZ4} : ∀ {fuel st b st' rest},
    decompressChunks lz fuel st b = (st', .ok rest) →
    ∃ raws, Frames lz b raws rest ∧ st' = raws.foldl addRaw st := by
  intro fuel
  induction fuel with
  | zero => intro st b st' rest h; simp [decompressChunks] at h
  | succ fuel ih =>
    intro st b st' rest h
    simp only [decompressChunks] at h
    rcases hr : rawDecode lz b with ⟨raw, b'⟩ | e | _ <;> simp only [hr] at h
    · split at h
      · rename_i he
        simp only [Prod.mk.injEq, Res.ok.injEq] at h
        exact ⟨[raw], .last (by rw [hr, h.2]) he, h.1.symm⟩
      · rename_i he
        obtain ⟨raws, h1, h2⟩ := ih h
        exact ⟨raw :: raws, .cons hr he h1, by rw [h2]; rfl⟩
    · simp at h
    · simp at h

theorem foldl_addRaw (raws : List Raw) : ∀ st : LoopState,
    (raws.foldl addRaw st).chunks =
      st.chunks ++ raws.map (fun r => ⟨.unknown r.sig r.payload, r.compressed⟩) ∧
    (raws.foldl addRaw st).warns = st.warns ∧ (raws.foldl addRaw st).groups = st.groups ∧
    (raws.foldl addRaw st).stats = { st.stats with
      chunkTypes := raws.foldl (fun m r => countType m r.sig) st.stats.chunkTypes
      chunks := st.stats.chunks + raws.length } := by
  induction raws with
  | nil => intro st; simp
  | cons r rs ih =>
    intro st
    obtain ⟨h1, h2, h3, h4⟩ := ih (addRaw st r)
    refine ⟨?_, ?_, ?_, ?_⟩
    · rw [List.foldl_cons, h1]; simp [addRaw]
    · rw [List.foldl_cons, h2]; rfl
    · rw [List.foldl_cons, h3]; rfl
    · rw [List.foldl_cons, h4]; simp [addRaw, Nat.add_comm, Nat.add_left_comm]

/-! ### compression does not matter -/

/-- The loop state without compression flags and the warning about them. -/
def LoopState.strip (st : LoopState) : LoopState :=
  { st with
    chunks := st.chunks.map (fun c => { c with compressed := false })
    warns := st.warns.filter (· ≠ .endCompressed) }

theorem stepChunk_strip (slack) (st : LoopState) (raw : Raw) :
    stepChunk slack st.strip raw.strip =
      (do let (st', f) ← stepChunk slack st raw; pure (st'.strip, f)) := by
  have hd : decodeBody slack st.groups raw.strip = decodeBody slack st.groups raw := rfl
  simp only [stepChunk, LoopState.strip, hd, List.length_map]
  rcases hb : decodeBody slack st.groups raw with _ | ⟨body⟩ | e | _
  · simp [Raw.strip]
  · simp only [Res.ok_bind, Res.pure_eq, Res.ok.injEq, Prod.mk.injEq, and_true]
    cases body <;> simp [Raw.strip]
    rename_i c
    (repeat' split) <;> simp_all
  · simp [Raw.strip]
  · simp

theorem runRaws_strip (slack) (raws : List Raw) : ∀ st : LoopState,
    runRaws slack st.strip (raws.map Raw.strip) =
      (do let st' ← runRaws slack st raws; pure st'.strip) := by
  induction raws with
  | nil => intro st; rfl
  | cons r rs ih =>
    intro st
    simp only [List.map_cons, runRaws, stepChunk_strip]
    rcases stepChunk slack st r with ⟨st1, f⟩ | e | _
    · simp [ih]
    · simp
    · simp

/-! ### writing -/

theorem writeChunks_plain (lz : LZ4) (raws : List Raw) :
    writeChunks lz true (raws.map (fun r => ⟨.unknown r.sig r.payload, r.compressed⟩)) =
      .ok (raws.flatMap (fun r => plainFrame r.sig r.payload)) := by
  induction raws with
  | nil => rfl
  | cons r rs ih => simp [writeChunks, writeChunk, Body.payload, Body.sig, rawWrite, ih, plainFrame]

theorem readStart_fileHeader (noXML : Bool) (cc ic : BitVec 32) (r : Bytes) :
    readStart noXML (fileHeader 0 cc ic ++ r) = .ok (.binary cc ic (List.replicate 8 0#8) r) := by
  have e : fileHeader 0 cc ic ++ r = (robloxSig ++ binaryMarker) ++ (binaryHeader ++ (le16 0 ++
      (le32 cc ++ (le32 ic ++ (List.replicate 8 0#8 ++ r))))) := by
    have : le64 0 = List.replicate 8 0#8 := by decide
    simp only [fileHeader, this, List.append_assoc]
  rw [e]
  simp only [readStart]
  rw [takeN_app (by decide)]
  simp only [Res.ok_bind]
  rw [if_neg (by decide), if_neg (by decide), takeN_app (by decide)]
  simp only [Res.ok_bind]
  rw [if_neg (by simp), num16_app]
  simp only [Res.ok_bind]
  rw [if_neg (by simp), num32_app]
  simp only [Res.ok_bind, num32_app]
  rw [takeN_app (by simp)]
  simp

theorem Frames.write {lz : LZ4} (hlz : lz.Lossless) (raws : List Raw) (last : Raw) (s : Bytes)
    (hs : ∀ r ∈ raws, r.sig ≠ sigEND) (hl : last.sig = sigEND)
    (hp : ∀ r ∈ raws ++ [last], r.payload.length < 2 ^ 32) (es : List Bytes)
    (h : (raws ++ [last]).map (rawWrite lz) = es.map .ok) :
    Frames lz (es.flatten ++ s) (raws ++ [last]) s := by
  induction raws generalizing es with
  | nil =>
    match es, h with
    | [], h => simp at h
    | _ :: _ :: _, h => simp at h
    | [e], h =>
      simp at h hp
      simp only [List.flatten_cons, List.flatten_nil, List.append_nil, List.nil_append]
      exact .last (rawDecode_rawWrite hlz last hp e h s) hl
  | cons r rs ih =>
    match es, h with
    | [], h => simp at h
    | e :: es, h =>
      simp only [List.cons_append, List.map_cons, List.cons.injEq] at h
      simp only [List.cons_append, List.mem_cons, forall_eq_or_imp] at hs hp
      rw [List.flatten_cons, List.append_assoc]
      exact .cons (rawDecode_rawWrite hlz r hp.1 e h.1 _) hs.1 (ih hs.2 hp.2 es h.2)

end Rbxl

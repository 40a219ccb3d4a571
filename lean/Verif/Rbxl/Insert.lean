import Verif.Rbxl.Framing
import Verif.Rbxl.CodecDecode
/-!
# Chunks that the codec ignores
-/
namespace Rbxl
open Go Rbxfile

/-- The position of a chunk after inserting one at position `k`. -/
def shift (k i : Nat) : Nat := if i < k then i else i + 1

theorem shift_inj {k i j : Nat} : shift k i = shift k j ↔ i = j := by
  unfold shift; split <;> split <;> omega

/-- The group table after inserting an ignored chunk at position `k`. -/
def shiftGroups (k : Nat) (g : Map (BitVec 32) (Nat × InstChunk)) :
    Map (BitVec 32) (Nat × InstChunk) := g.map fun e => (e.1, (shift k e.2.1, e.2.2))

theorem get?_shiftGroups (k : Nat) (g : Map (BitVec 32) (Nat × InstChunk)) (c : BitVec 32) :
    (shiftGroups k g).get? c = (g.get? c).map fun e => (shift k e.1, e.2) := by
  induction g with
  | nil => rfl
  | cons e g ih =>
    obtain ⟨a, i, inst⟩ := e
    simp only [shiftGroups, List.map_cons, Map.get?] at ih ⊢
    by_cases h : a = c
    · simp [h]
    · simp only [h, if_false]; exact ih

theorem set_shiftGroups (k : Nat) (g : Map (BitVec 32) (Nat × InstChunk)) (c : BitVec 32)
    (i : Nat) (inst : InstChunk) :
    (shiftGroups k g).set c (shift k i, inst) = shiftGroups k (g.set c (i, inst)) := by
  induction g with
  | nil => rfl
  | cons e g ih =>
    obtain ⟨a, j, inst'⟩ := e
    simp only [shiftGroups, List.map_cons, Map.set] at ih ⊢
    by_cases h : a = c
    · simp [h]
    · simp only [h, if_false, List.map_cons]; rw [ih]

/-- `st'` is `st` with the chunk `x` at position `k`, and with `d` more warnings. -/
structure Inserted (k d : Nat) (x : Chunk) (st st' : LoopState) : Prop where
  len : k ≤ st.chunks.length
  chunks : st'.chunks = st.chunks.take k ++ x :: st.chunks.drop k
  groups : st'.groups = shiftGroups k st.groups
  warns : st'.warns.length = st.warns.length + d

theorem Inserted.length {k d x st st'} (h : Inserted k d x st st') :
    st'.chunks.length = shift k st.chunks.length := by
  have := h.len
  rw [h.chunks]; unfold shift; rw [if_neg (by omega)]
  simp only [List.length_append, List.length_take, List.length_cons, List.length_drop]; omega

theorem decodeBody_shift (slack) (k : Nat) (g) (raw : Raw) :
    decodeBody slack (shiftGroups k g) raw = decodeBody slack g raw := by
  have : decodeProp slack (shiftGroups k g) = decodeProp slack g := by
    unfold decodeProp
    congr 1
    funext c
    rw [get?_shiftGroups]
    cases Map.get? g c <;> rfl
  simp only [decodeBody, this]

theorem Inserted.push {k d x st st'} (h : Inserted k d x st st') (c : Chunk) :
    k ≤ (st.chunks ++ [c]).length ∧
    st'.chunks ++ [c] = (st.chunks ++ [c]).take k ++ x :: (st.chunks ++ [c]).drop k := by
  have hl := h.len
  refine ⟨by simp; omega, ?_⟩
  rw [h.chunks, List.take_append_of_le_length hl, List.drop_append_of_le_length hl]
  simp

/-- Outcomes of the loop body that agree up to an inserted chunk. -/
def InsertedRes (k d : Nat) (x : Chunk) : Res (LoopState × Bool) → Res (LoopState × Bool) → Prop
  | .ok (st, f), .ok (st', f') => Inserted k d x st st' ∧ f = f'
  | .panic, .panic => True
  | _, _ => False

theorem stepChunk_inserted (slack) {k d x st st'} (h : Inserted k d x st st') (raw : Raw) :
    InsertedRes k d x (stepChunk slack st raw) (stepChunk slack st' raw) := by
  have hd : decodeBody slack st'.groups raw = decodeBody slack st.groups raw := by
    rw [h.groups, decodeBody_shift]
  simp only [stepChunk, hd]
  rcases hb : decodeBody slack st.groups raw with _ | ⟨body⟩ | e | _
  · have := h.push ⟨.unknown raw.sig raw.payload, raw.compressed⟩
    exact ⟨⟨this.1, this.2, h.groups, by simp [h.warns]; omega⟩, rfl⟩
  · have := h.push ⟨body, raw.compressed⟩
    refine ⟨⟨this.1, this.2, ?_, ?_⟩, rfl⟩
    · cases body <;> simp only [h.groups]
      rw [h.length, set_shiftGroups]
    · simp [h.warns]; omega
  · have := h.push ⟨.errored raw.sig raw.payload, raw.compressed⟩
    exact ⟨⟨this.1, this.2, h.groups, by simp [h.warns]; omega⟩, rfl⟩
  · trivial

theorem decodeChunks_inserted {lz : LZ4} {slack} {k d : Nat} {x : Chunk} : ∀ (fuel : Nat) {st st'} (b : Bytes),
    Inserted k d x st st' →
    (decodeChunks lz slack fuel st' b).2 = (decodeChunks lz slack fuel st b).2 ∧
    Inserted k d x (decodeChunks lz slack fuel st b).1 (decodeChunks lz slack fuel st' b).1 := by
  intro fuel
  induction fuel with
  | zero => intro st st' b h; exact ⟨rfl, h⟩
  | succ fuel ih =>
    intro st st' b h
    simp only [decodeChunks]
    rcases hr : rawDecode lz b with ⟨raw, b'⟩ | e | _
    · have hs := stepChunk_inserted slack h raw
      simp only
      rcases h1 : stepChunk slack st raw with ⟨st1, f⟩ | e | _ <;>
        rcases h2 : stepChunk slack st' raw with ⟨st2, f'⟩ | e' | _ <;>
        simp only [h1, h2, InsertedRes] at hs
      · obtain ⟨hi, rfl⟩ := hs
        cases f
        · exact ih b' hi
        · exact ⟨rfl, hi⟩
      · exact ⟨rfl, h⟩
    · exact ⟨rfl, h⟩
    · exact ⟨rfl, h⟩

/-- Enough fuel is enough. -/
theorem decodeChunks_fuel {lz : LZ4} (hlz : lz.Lossless) {slack} : ∀ (fuel fuel' : Nat) (st) (b : Bytes),
    b.length < fuel → b.length < fuel' →
    decodeChunks lz slack fuel st b = decodeChunks lz slack fuel' st b := by
  intro fuel
  induction fuel with
  | zero => intro _ _ _ h; omega
  | succ fuel ih =>
    intro fuel' st b h h'
    cases fuel' with
    | zero => omega
    | succ fuel' =>
      simp only [decodeChunks]
      rcases hr : rawDecode lz b with ⟨raw, b'⟩ | e | _
      · have hl := (rawDecode_ok hlz hr).2
        simp only
        rcases stepChunk slack st raw with ⟨st1, f⟩ | e | _
        · cases f
          · exact ih fuel' st1 b' (by omega) (by omega)
          · rfl
        · rfl
        · rfl
      · rfl
      · rfl

/-- A complete frame: whatever follows, reading yields `raw` and leaves what follows. -/
def IsFrame (lz : LZ4) (e : Bytes) (raw : Raw) : Prop := ∀ s, rawDecode lz (e ++ s) = .ok (raw, s)

/-- A sequence of complete frames none of which is an END chunk. -/
inductive IsFrames (lz : LZ4) : Bytes → List Raw → Prop
  | nil : IsFrames lz [] []
  | cons {e raw b raws} : IsFrame lz e raw → raw.sig ≠ sigEND → IsFrames lz b raws →
      IsFrames lz (e ++ b) (raw :: raws)

theorem decodeChunks_prefix {lz : LZ4} (hlz : lz.Lossless) {slack} {p raws}
    (h : IsFrames lz p raws) : ∀ (st : LoopState) (q : Bytes),
    match runRaws slack st raws with
    | .ok st' => decodeChunks lz slack ((p ++ q).length + 1) st (p ++ q) =
        decodeChunks lz slack (q.length + 1) st' q
    | _ => (decodeChunks lz slack ((p ++ q).length + 1) st (p ++ q)).2 = .panic := by
  induction h with
  | nil => intro st q; simp [runRaws]
  | @cons e raw b raws h1 h2 h3 ih =>
    intro st q
    have hr := h1 (b ++ q)
    have hl := (rawDecode_ok hlz hr).2
    rw [List.append_assoc]
    simp only [runRaws]
    have hfl := stepChunk_flag (slack := slack) (st := st) (raw := raw)
    have key : decodeChunks lz slack ((e ++ (b ++ q)).length + 1) st (e ++ (b ++ q)) =
        match stepChunk slack st raw with
        | .ok (st', _) => decodeChunks lz slack ((b ++ q).length + 1) st' (b ++ q)
        | .err e => (st, .err e)
        | .panic => (st, .panic) := by
      rw [decodeChunks, hr]
      simp only
      rcases hs : stepChunk slack st raw with ⟨st1, f⟩ | e' | _ <;> simp only [hs]
      · have := hfl.1 _ _ hs; simp [h2] at this; subst this
        exact decodeChunks_fuel hlz _ _ _ _ (by omega) (by omega)
    rw [key]
    rcases hs : stepChunk slack st raw with ⟨st1, f⟩ | e' | _
    · simpa using ih st1 q
    · exact absurd hs (hfl.2 e')
    · simp

/-! ### the codec -/

/-- Warnings of the codec after inserting a chunk at position `k`. -/
def CodecWarn.shift (k : Nat) : CodecWarn → CodecWarn
  | .unknownClass i => .unknownClass (Rbxl.shift k i)
  | .noValueType i => .noValueType (Rbxl.shift k i)
  | .childMissing i j => .childMissing (Rbxl.shift k i) j

/-- The codec state after inserting a chunk at position `k`. -/
def DecState.shift (k : Nat) (st : DecState) : DecState :=
  { st with warns := st.warns.map (CodecWarn.shift k) }

theorem parentLoop_shift (k ic : Nat) (n) : ∀ (ps : List (Id × Id)) (i : Nat) (st : DecState),
    parentLoop (shift k ic) n i ps (st.shift k) =
      ((parentLoop ic n i ps st).1.shift k, (parentLoop ic n i ps st).2) := by
  intro ps
  induction ps with
  | nil => intro i st; rfl
  | cons p ps ih =>
    intro i st
    obtain ⟨c, p⟩ := p
    have hh : (st.shift k).heap = st.heap := rfl
    simp only [parentLoop, hh]
    split
    · rfl
    split
    · rw [← ih]; congr 1; simp [DecState.shift, CodecWarn.shift]
    split
    · rw [← ih]; rfl
    · split
      · rw [← ih]
      · rw [← ih]; rfl

theorem codecStep_shift (quat) (k ic : Nat) (f f' : FormatModel) (st : DecState) (b : Body)
    (h1 : f'.classCount = f.classCount) (h2 : f'.instanceCount = f.instanceCount)
    (h3 : f'.groupLookup = shiftGroups k f.groupLookup) :
    codecStep quat f' (shift k ic) (st.shift k) b =
      ((codecStep quat f ic st b).1.shift k, (codecStep quat f ic st b).2) := by
  have hh : (st.shift k).heap = st.heap := rfl
  have hs : (st.shift k).shared = st.shared := rfl
  cases b with
  | inst c =>
    simp only [codecStep, h1, h2, h3, hh, get?_shiftGroups, Option.map_map]
    have : Option.map (Prod.fst ∘ fun e : Nat × InstChunk => (shift k e.1, e.2))
        (f.groupLookup.get? c.classID) ≠ some (shift k ic) ↔
        Option.map Prod.fst (f.groupLookup.get? c.classID) ≠ some ic := by
      cases f.groupLookup.get? c.classID <;> simp [shift_inj]
    simp only [this]
    split
    · rfl
    split
    · rfl
    split
    · rfl
    · rfl
    · split <;> rfl
  | prop c =>
    simp only [codecStep, h1, h3, hh, hs, get?_shiftGroups]
    split
    · rfl
    · rcases f.groupLookup.get? c.classID with _ | ⟨i, inst⟩
      · simp [DecState.shift, CodecWarn.shift]
      · simp only [Option.map_some]
        split
        · simp [DecState.shift, CodecWarn.shift]
        · split
          · rfl
          · split <;> rfl
  | parent c =>
    simp only [codecStep, h2]
    split
    · rfl
    split
    · rfl
    · exact parentLoop_shift k ic _ _ _ _
  | metadata _ => rfl
  | shared _ => rfl
  | end_ _ => rfl
  | unknown _ _ => rfl
  | errored _ _ => rfl

theorem codecLoop_shift (quat) (k : Nat) (f f' : FormatModel)
    (h1 : f'.classCount = f.classCount) (h2 : f'.instanceCount = f.instanceCount)
    (h3 : f'.groupLookup = shiftGroups k f.groupLookup) :
    ∀ (cs : List Chunk) (ic : Nat) (st : DecState), (ic + cs.length ≤ k ∨ k ≤ ic) →
    codecLoop quat f' (shift k ic) cs (st.shift k) =
      ((codecLoop quat f ic cs st).1.shift k, (codecLoop quat f ic cs st).2) := by
  intro cs
  induction cs with
  | nil => intro ic st _; rfl
  | cons c cs ih =>
    intro ic st h
    simp only [codecLoop, codecStep_shift quat k ic f f' st c.body h1 h2 h3]
    have hs : shift k ic + 1 = shift k (ic + 1) ∨ cs = [] := by
      simp only [List.length_cons] at h
      by_cases hc : cs = []
      · exact .inr hc
      · have := List.length_pos_iff.2 hc
        left; unfold shift; split <;> split <;> omega
    rcases hc : codecStep quat f ic st c.body with ⟨st1, _ | _ | _ | _⟩
    · rcases hs with hs | rfl
      · simp only [hs]
        exact ih _ _ (by simp only [List.length_cons] at h; omega)
      · rfl
    · rfl
    · rfl
    · rfl

theorem codecLoop_append (quat) (f : FormatModel) (cs cs' : List Chunk) : ∀ (ic : Nat) (st : DecState),
    codecLoop quat f ic (cs ++ cs') st =
      match codecLoop quat f ic cs st with
      | (st', .next) => codecLoop quat f (ic + cs.length) cs' st'
      | r => r := by
  induction cs with
  | nil => intro ic st; simp [codecLoop]
  | cons c cs ih =>
    intro ic st
    simp only [List.cons_append, codecLoop, List.length_cons]
    rcases codecStep quat f ic st c.body with ⟨st1, _ | _ | _ | _⟩
    · simp only; rw [ih, show ic + 1 + cs.length = ic + (cs.length + 1) by omega]
    · rfl
    · rfl
    · rfl

/-- The codec does not notice the inserted chunk. -/
theorem codecDecode_inserted (quat) (k : Nat) (f f' : FormatModel) (x : Chunk)
    (h1 : f'.classCount = f.classCount) (h2 : f'.instanceCount = f.instanceCount)
    (h3 : f'.groupLookup = shiftGroups k f.groupLookup) (hk : k ≤ f.chunks.length)
    (hx : (∃ s p, x.body = .unknown s p) ∨ ∃ s p, x.body = .errored s p)
    (h4 : f'.chunks = f.chunks.take k ++ x :: f.chunks.drop k) :
    (codecDecode quat f').2 = (codecDecode quat f).2 ∧
    (codecDecode quat f').1 = (codecDecode quat f).1.map (CodecWarn.shift k) := by
  have hl : (f.chunks.take k).length = k := by simp; omega
  have hx' : ∀ ic st, codecStep quat f' ic st x.body = (st, .next) := by
    intro ic st
    rcases hx with ⟨s, p, e⟩ | ⟨s, p, e⟩ <;> rw [e] <;> rfl
  have key : codecLoop quat f' 0 f'.chunks {} =
      ((codecLoop quat f 0 f.chunks {}).1.shift k, (codecLoop quat f 0 f.chunks {}).2) := by
    conv => rhs; rw [← List.take_append_drop k f.chunks]
    rw [h4, codecLoop_append, codecLoop_append]
    have e0 := codecLoop_shift quat k f f' h1 h2 h3 (f.chunks.take k) 0 {} (.inl (by omega))
    have e1 : codecLoop quat f' 0 (f.chunks.take k) {} =
        ((codecLoop quat f 0 (f.chunks.take k) {}).1.shift k,
          (codecLoop quat f 0 (f.chunks.take k) {}).2) := by
      by_cases hk0 : k = 0
      · subst hk0; rfl
      · have : shift k 0 = 0 := by unfold shift; simp; omega
        rw [this] at e0
        exact e0
    rw [e1]
    rcases codecLoop quat f 0 (f.chunks.take k) {} with ⟨st1, _ | _ | _ | _⟩
    · simp only [codecLoop, hx', hl]
      have := codecLoop_shift quat k f f' h1 h2 h3 (f.chunks.drop k) (0 + k) st1 (.inr (by omega))
      rw [← this]
      congr 1
      unfold shift; simp
    · rfl
    · rfl
    · rfl
  simp only [codecDecode, key]
  rcases codecLoop quat f 0 f.chunks {} with ⟨st1, _ | _ | _ | _⟩ <;> exact ⟨rfl, rfl⟩

end Rbxl

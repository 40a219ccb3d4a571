import Verif.Rbxl.DecodeInv
/-!
# The table of classes that the decoder builds agrees with the chunks
-/
namespace Rbxl
open Go Rbxfile Spec

/-- The table of classes names INST chunks of the list, by their class id. -/
structure GroupsOk (st : LoopState) : Prop where
  groups : ∀ (k : BitVec 32) (i : Nat) (inst : InstChunk), st.groups.get? k = some (i, inst) →
    inst.classID = k ∧ ∃ c, st.chunks[i]? = some c ∧ c.body = .inst inst
  all : ∀ (i : Nat) (c : Chunk) (inst : InstChunk), st.chunks[i]? = some c → c.body = .inst inst →
    (st.groups.get? inst.classID).isSome

theorem GroupsOk.push {st st' : LoopState} {c : Chunk} (h : GroupsOk st)
    (hc : st'.chunks = st.chunks ++ [c])
    (hg : st'.groups = match c.body with | .inst g => st.groups.set g.classID (st.chunks.length, g) | _ => st.groups) :
    GroupsOk st' := by
  have lt : ∀ {i : Nat} {x : Chunk}, st.chunks[i]? = some x → i < st.chunks.length := by
    intro i x hx
    by_cases hi : i < st.chunks.length
    · exact hi
    · rw [List.getElem?_eq_none (by omega)] at hx; cases hx
  have old : ∀ {i : Nat} {x : Chunk}, st.chunks[i]? = some x → st'.chunks[i]? = some x := by
    intro i x hx
    rw [hc, List.getElem?_append_left (lt hx)]; exact hx
  have grow : ∀ k, (st.groups.get? k).isSome → (st'.groups.get? k).isSome := by
    intro k hk
    rw [hg]
    split
    · rw [Map.get?_set]; split
      · rfl
      · exact hk
    · exact hk
  constructor
  · intro k i inst hk
    have base : st.groups.get? k = some (i, inst) → inst.classID = k ∧ ∃ c, st'.chunks[i]? = some c ∧ c.body = .inst inst := by
      intro hk
      obtain ⟨h1, c', h2, h3⟩ := h.groups k i inst hk
      exact ⟨h1, c', old h2, h3⟩
    rw [hg] at hk
    split at hk
    · rename_i g hb
      rw [Map.get?_set] at hk
      split at hk
      · rename_i hkc
        simp only [Option.some.injEq, Prod.mk.injEq] at hk
        obtain ⟨rfl, rfl⟩ := hk
        exact ⟨hkc.symm, c, by rw [hc]; simp, hb⟩
      · exact base hk
    · exact base hk
  · intro i x inst hx hb
    rw [hc] at hx
    by_cases hi : i < st.chunks.length
    · rw [List.getElem?_append_left hi] at hx
      exact grow _ (h.all i x inst hx hb)
    · rw [List.getElem?_append_right (by omega)] at hx
      have hx := List.mem_of_getElem? hx
      simp only [List.mem_singleton] at hx
      subst hx
      rw [hg, hb]
      simp only [Map.get?_set_self]
      rfl

/-- A step appends a chunk; the loop ends exactly after an END chunk. -/
theorem stepChunk_push {slack} {st st' : LoopState} {raw : Raw} {fl : Bool} (e : stepChunk slack st raw = .ok (st', fl)) :
    ∃ c, st'.chunks = st.chunks ++ [c] ∧
      st'.groups = (match c.body with | .inst g => st.groups.set g.classID (st.chunks.length, g) | _ => st.groups) ∧
      (fl = true ↔ ∃ x, c.body = .end_ x) := by
  simp only [stepChunk] at e
  split at e
  · simp only [Res.ok.injEq, Prod.mk.injEq] at e
    obtain ⟨rfl, rfl⟩ := e
    exact ⟨_, rfl, rfl, by simp⟩
  · cases e
  · simp only [Res.ok.injEq, Prod.mk.injEq] at e
    obtain ⟨rfl, rfl⟩ := e
    exact ⟨_, rfl, rfl, by simp⟩
  · rename_i body hb
    simp only [Res.ok.injEq, Prod.mk.injEq] at e
    obtain ⟨rfl, rfl⟩ := e
    exact ⟨_, rfl, rfl, by cases body <;> simp⟩

theorem beforeEnd_append {pre : List Chunk} (h : ∀ c ∈ pre, ∀ x, c.body ≠ .end_ x) (post : List Chunk) :
    beforeEnd (pre ++ post) = pre ++ beforeEnd post := by
  induction pre with
  | nil => rfl
  | cons c pre ih =>
    have hc := h c (by simp)
    have : beforeEnd (c :: (pre ++ post)) = c :: beforeEnd (pre ++ post) := by
      cases hb : c.body <;> simp only [beforeEnd, hb]
      exact absurd hb (hc _)
    rw [List.cons_append, this, ih (fun c hc => h c (by simp [hc]))]
    rfl

/-- What the chunk loop leaves. -/
theorem decodeChunks_groups {lz : LZ4} {slack} : ∀ (fuel : Nat) (st st' : LoopState) (b r : Bytes),
    decodeChunks lz slack fuel st b = (st', .ok r) → GroupsOk st → (∀ c ∈ st.chunks, ∀ x, c.body ≠ .end_ x) →
    GroupsOk st' ∧ ∃ pre last x, st'.chunks = pre ++ [last] ∧ last.body = .end_ x ∧ ∀ c ∈ pre, ∀ x, c.body ≠ .end_ x := by
  intro fuel
  induction fuel with
  | zero => intro st st' b r e; simp [decodeChunks] at e
  | succ fuel ih =>
    intro st st' b r e hg hn
    simp only [decodeChunks] at e
    rcases hd : rawDecode lz b with ⟨raw, rest⟩ | e' | _ <;> simp only [hd] at e
    · rcases hs : stepChunk slack st raw with ⟨st1, _ | _⟩ | e' | _ <;> simp only [hs] at e
      · obtain ⟨c, h1, h2, h3⟩ := stepChunk_push hs
        refine ih _ _ _ _ e (hg.push h1 h2) ?_
        rw [h1]
        intro c' hc' x hx
        rcases List.mem_append.1 hc' with hc' | hc'
        · exact hn c' hc' x hx
        · simp only [List.mem_singleton] at hc'
          subst hc'
          exact absurd (h3.2 ⟨x, hx⟩) (by simp)
      · obtain ⟨c, h1, h2, h3⟩ := stepChunk_push hs
        simp only [Prod.mk.injEq] at e
        obtain ⟨rfl, _⟩ := e
        obtain ⟨x, hx⟩ := h3.1 rfl
        exact ⟨hg.push h1 h2, st.chunks, c, x, h1, hx, hn⟩
      · simp at e
      · simp at e
    · simp at e
    · simp at e

/-- In a model that the decoder produced, the table of classes and the chunks agree. -/
theorem decodeFile_groups {lz : LZ4} {slack} {noXML : Bool} {b : Bytes} {ws : List Warn} {s : Stats} {f : FormatModel}
    (e : decodeFile lz slack noXML false b = (ws, s, .ok (.model f))) :
    (∀ k pos g, f.groupLookup.get? k = some (pos, g) → g.classID = k ∧
      ∃ ch ∈ beforeEnd f.chunks, ch.body = .inst g) ∧
    ∀ ch ∈ beforeEnd f.chunks, ∀ g, ch.body = .inst g → (f.groupLookup.get? g.classID).isSome := by
  simp only [decodeFile] at e
  split at e
  · simp at e
  · simp at e
  · simp at e
  rename_i cc ic reserved rest _
  generalize hst : (LoopState.mk [] [] (if reserved ≠ List.replicate 8 0#8 then [.reserve reserved] else [])
      (Stats.mk false 0 cc ic 0 [])) = st0 at e
  have h0 : GroupsOk st0 := by subst hst; exact ⟨by simp [Map.get?], by simp⟩
  have h0' : ∀ c ∈ st0.chunks, ∀ x, c.body ≠ .end_ x := by subst hst; simp
  simp only [Prod.mk.injEq, Bool.false_eq_true, if_false] at e
  obtain ⟨-, -, e⟩ := e
  rcases hd : decodeChunks lz slack (rest.length + 1) st0 rest with ⟨st', r⟩
  rw [hd] at e
  cases r with
  | panic => simp at e
  | err _ => simp at e
  | ok r =>
    simp only [Res.ok.injEq, Decoded.model.injEq] at e
    subst e
    obtain ⟨hg, pre, last, x, h1, h2, h3⟩ := decodeChunks_groups _ _ _ _ _ hd h0 h0'
    have hbe : beforeEnd st'.chunks = pre := by
      rw [h1, beforeEnd_append h3]
      simp [beforeEnd, h2]
    simp only [hbe]
    constructor
    · intro k pos g hk
      obtain ⟨a1, c, a2, a3⟩ := hg.groups k pos g hk
      refine ⟨a1, c, ?_, a3⟩
      have := List.mem_of_getElem? a2
      rw [h1] at this
      rcases List.mem_append.1 this with this | this
      · exact this
      · simp only [List.mem_singleton] at this
        subst this
        rw [h2] at a3; cases a3
    · intro ch hm g hb
      obtain ⟨i, hi⟩ := List.getElem?_of_mem (show ch ∈ st'.chunks by rw [h1]; simp [hm])
      exact hg.all i ch g hi hb

end Rbxl

import Verif.Rbxl.Local
import Verif.Spec.Apart
/-!
# Changing the order of chunks
-/
namespace Rbxl
open Go Rbxfile Spec

/-! ## Whether decoding fails depends on no more than which instances there are -/

/-- The heaps have the same instances. -/
def SameIds (h h' : Heap Id) : Prop := ∀ id, (h.get? id).isSome = (h'.get? id).isSome

theorem SameIds.set {h h' : Heap Id} (hh : SameIds h h') (id : Id) (i j : Inst Id) : SameIds (h.set id i) (h'.set id j) := by
  intro id'
  by_cases hk : id' = id
  · subst hk
    rw [Map.get?_set_self, Map.get?_set_self]; rfl
  · rw [Map.get?_set_ne _ _ hk, Map.get?_set_ne _ _ hk]
    exact hh id'

theorem SameIds.some {h h' : Heap Id} (hh : SameIds h h') {id : Id} {i : Inst Id} (hi : h.get? id = some i) : ∃ j, h'.get? id = some j := by
  have := hh id
  rw [hi] at this
  exact Option.isSome_iff_exists.1 this.symm

theorem propValue_ids (quat : Quat) {h h' : Heap Id} (hh : SameIds h h') (s s' : List (Bytes × Bytes)) (a : Arr) (i : Nat) {v : Value Id}
    (hv : propValue quat h s a i = .ok v) : ∃ v', propValue quat h' s' a i = .ok v' := by
  have hl : lookupRef h = lookupRef h' := by
    funext r
    rw [lookupRef, lookupRef, hh r]
  rcases a with ⟨t, vs⟩ | vs | ⟨w, p⟩
  · by_cases ht : t = .sharedString
    · subst ht
      simp only [propValue] at hv ⊢
      split at hv
      · split <;> exact ⟨_, rfl⟩
      · cases hv
    · refine ⟨v, ?_⟩
      rw [← hv]
      cases t <;> first | exact absurd rfl ht | simp only [propValue, hl]
  · exact ⟨v, hv⟩
  · exact ⟨v, hv⟩

theorem propLoop_ids {value value' : Nat → Res (Value Id)} (hv : ∀ i v, value i = .ok v → ∃ v', value' i = .ok v') (name : Bytes) :
    ∀ (ids : List Id) (i : Nat) (h h' k : Heap Id), SameIds h h' →
    propLoop value name i ids h = .ok k → ∃ k', propLoop value' name i ids h' = .ok k'
  | [], i, h, h', k, hh, hk => ⟨h', rfl⟩
  | r :: ids, i, h, h', k, hh, hk => by
    rw [propLoop] at hk ⊢
    cases hv1 : value i with
    | panic => rw [hv1] at hk; cases hk
    | err _ => rw [hv1] at hk; cases hk
    | ok v =>
      rw [hv1] at hk
      obtain ⟨v', h1⟩ := hv i v hv1
      rw [h1]
      simp only at hk ⊢
      cases h2 : h.get? r with
      | none => rw [h2] at hk; cases hk
      | some a =>
        rw [h2] at hk
        obtain ⟨b, h3⟩ := hh.some h2
        rw [h3]
        exact propLoop_ids hv name ids _ _ _ _ (hh.set _ _ _) hk

theorem parentLoop_ids (ic ic' : Nat) (n : BitVec 32) : ∀ (l : List (Id × Id)) (i : Nat) (st st' k : DecState), SameIds st.heap st'.heap →
    parentLoop ic n i l st = (k, .next) → ∃ k', parentLoop ic' n i l st' = (k', .next)
  | [], i, st, st', k, hh, hk => ⟨st', rfl⟩
  | (c, p) :: l, i, st, st', k, hh, hk => by
    rw [parentLoop] at hk ⊢
    split at hk
    · cases hk
    rename_i h1
    rw [if_neg h1]
    have hc : (st'.heap.get? c).isNone = (st.heap.get? c).isNone := by
      have := hh c
      cases h2 : st.heap.get? c <;> cases h3 : st'.heap.get? c <;> rw [h2, h3] at this <;> first | rfl | cases this
    rw [hc]
    split at hk
    · rename_i h2
      rw [if_pos h2]
      refine parentLoop_ids ic ic' n l _ _ _ _ ?_ hk
      exact hh
    rename_i h2
    rw [if_neg h2]
    split at hk
    · rename_i h3
      rw [if_pos h3]
      refine parentLoop_ids ic ic' n l _ _ _ _ ?_ hk
      exact hh
    rename_i h3
    rw [if_neg h3]
    cases h4 : st.heap.get? p with
    | none =>
      have h5 : st'.heap.get? p = none := by
        have := hh p
        rw [h4] at this
        cases h5 : st'.heap.get? p with
        | none => rfl
        | some _ => rw [h5] at this; cases this
      rw [h4] at hk
      rw [h5]
      exact parentLoop_ids ic ic' n l _ _ _ _ hh hk
    | some a =>
      obtain ⟨b, h5⟩ := hh.some h4
      rw [h4] at hk
      rw [h5]
      refine parentLoop_ids ic ic' n l _ _ _ _ ?_ hk
      exact hh.set _ _ _

theorem codecStep_ids (quat : Quat) (f : FormatModel) (ic ic' : Nat) {st st' k : DecState} {b : Body} (hb : ∀ c, b ≠ .inst c)
    (hh : SameIds st.heap st'.heap) (hk : codecStep quat f ic st b = (k, .next)) : ∃ k', codecStep quat f ic' st' b = (k', .next) := by
  cases b with
  | inst c => exact (hb c rfl).elim
  | prop c =>
    simp only [codecStep] at hk ⊢
    split at hk
    · cases hk
    rename_i h1
    rw [if_neg h1]
    split at hk
    · exact ⟨_, rfl⟩
    rename_i inst h2
    split at hk
    · exact ⟨_, rfl⟩
    rename_i a h3
    split at hk
    · cases hk
    rename_i h4
    rw [if_neg h4]
    split at hk
    · cases hk
    · cases hk
    rename_i h' h5
    obtain ⟨h, h6⟩ := propLoop_ids (fun i v' hv => propValue_ids quat hh st.shared st'.shared a i hv) c.name _ _ _ _ _ hh h5
    rw [h6]
    exact ⟨_, rfl⟩
  | parent c =>
    simp only [codecStep] at hk ⊢
    split at hk
    · cases hk
    rename_i h1
    rw [if_neg h1]
    split at hk
    · cases hk
    rename_i h2
    rw [if_neg h2]
    exact parentLoop_ids _ _ _ _ _ _ _ _ hh hk
  | metadata vs => exact ⟨_, rfl⟩
  | shared c => exact ⟨_, rfl⟩
  | end_ _ => cases hk
  | unknown _ _ => exact ⟨_, rfl⟩
  | errored _ _ => exact ⟨_, rfl⟩

theorem StLike.ids {e : Effects} {st st' : DecState} (h : StLike e st st') : SameIds st.heap st'.heap := h.heap.isSome

/-! ## Chunks that are apart -/

/-- Children that cannot differ do not. -/
theorem besides_children {e : Effects} {p : BitVec 32} {l m : List (BitVec 32)} (h : ChildrenBesides e p l m) (hc : ∀ c, ¬ e.child p c) :
    l = m :=
  h.1.eq_of_length (List.perm_iff_count.2 fun c => h.2 c (hc c)).length_eq

theorem apart_children {e e' : Effects} (ha : Apart e e') {p : BitVec 32} {l m x y : List (BitVec 32)} (h1 : ChildrenBesides e p l x)
    (h2 : ChildrenBesides e p l y) (h3 : ChildrenBesides e' p m x) (h4 : ChildrenBesides e' p m y) : x = y := by
  by_cases h : ∃ c, e.child p c
  · obtain ⟨c, hc⟩ := h
    have h' : ∀ c', ¬ e'.child p c' := fun c' hc' => ha.child p c c' ⟨hc, hc'⟩
    exact (besides_children h3 h').symm.trans (besides_children h4 h')
  · have h' : ∀ c, ¬ e.child p c := fun c hc => h ⟨c, hc⟩
    exact (besides_children h1 h').symm.trans (besides_children h2 h')

theorem exact_property {e : Effects} {id : Id} {i x y : Inst Id} {n : Bytes} (hs : ¬ e.shared) (hn : ¬ e.property id n)
    (h1 : InstBesides e id i x) (h2 : InstBesides e id i y) : x.properties.get? n = y.properties.get? n := by
  rcases h1.properties n hn with ⟨a1, a2⟩ | ⟨v, w, a1, a2, a3⟩ <;> rcases h2.properties n hn with ⟨b1, b2⟩ | ⟨v', w', b1, b2, b3⟩
  · rw [a2, b2]
  · rw [a1] at b1; cases b1
  · rw [a1] at b1; cases b1
  · rw [a1] at b1; cases b1
    rcases a3 with rfl | ⟨a3, -⟩
    · rcases b3 with rfl | ⟨b3, -⟩
      · rw [a2, b2]
      · exact (hs b3).elim
    · exact (hs a3).elim

theorem apart_property {e e' : Effects} (ha : Apart e e') {id : Id} {i j x y : Inst Id} (h1 : InstBesides e id i x) (h2 : InstBesides e id i y)
    (h3 : InstBesides e' id j x) (h4 : InstBesides e' id j y) (n : Bytes) : x.properties.get? n = y.properties.get? n := by
  by_cases hs : e.shared
  · exact exact_property (fun h => ha.shared ⟨hs, h⟩) (ha.left hs id n) h3 h4
  by_cases hn : e.property id n
  · exact exact_property (fun h => ha.right h id n hn) (fun h => ha.property id n ⟨hn, h⟩) h3 h4
  · exact exact_property hs hn h1 h2

/-- Nothing differs. -/
def NoEffects : Effects := {}

theorem apart_state {e e' : Effects} (ha : Apart e e') {a b ab ba : DecState} (h1 : StLike e b ab) (h2 : StLike e b ba)
    (h3 : StLike e' a ab) (h4 : StLike e' a ba) : StLike NoEffects ba ab := by
  refine ⟨fun id => ?_, ?_, ?_, fun k _ => ?_⟩
  · rcases h1.heap id with ⟨a1, a2⟩ | ⟨i, x, a1, a2, a3⟩ <;> rcases h2.heap id with ⟨b1, b2⟩ | ⟨i', y, b1, b2, b3⟩
    · exact .inl ⟨b2, a2⟩
    · rw [a1] at b1; cases b1
    · rw [a1] at b1; cases b1
    · rw [a1] at b1; cases b1
      rcases h3.heap id with ⟨-, c2⟩ | ⟨j, x', c1, c2, c3⟩
      · rw [a2] at c2; cases c2
      rw [a2] at c2; cases c2
      rcases h4.heap id with ⟨-, d2⟩ | ⟨j', y', d1, d2, d3⟩
      · rw [b2] at d2; cases d2
      rw [b2] at d2; cases d2
      rw [c1] at d1; cases d1
      refine .inr ⟨y, x, b2, a2, b3.className.symm.trans a3.className, b3.reference.symm.trans a3.reference,
        b3.isService.symm.trans a3.isService, fun n _ => ?_, ?_⟩
      · have := apart_property ha a3 b3 c3 d3 n
        rw [← this]
        cases hx : x.properties.get? n with
        | none => exact .inl ⟨rfl, rfl⟩
        | some v => exact .inr ⟨v, v, rfl, rfl, sameValue_refl v⟩
      · rw [apart_children ha a3.children b3.children c3.children d3.children]
        exact sameChildren_refl _ _
  · left
    by_cases hs : e.shared
    · have hs' : ¬ e'.shared := fun h => ha.shared ⟨hs, h⟩
      exact ((h4.shared.resolve_right hs').symm.trans (h3.shared.resolve_right hs'))
    · exact ((h2.shared.resolve_right hs).symm.trans (h1.shared.resolve_right hs))
  · rw [apart_children ha h1.roots h2.roots h3.roots h4.roots]
    exact sameChildren_refl _ _
  · by_cases hs : e.metadata k
    · have hs' : ¬ e'.metadata k := fun h => ha.metadata k ⟨hs, h⟩
      exact ((h4.metadata k hs').symm.trans (h3.metadata k hs'))
    · exact ((h2.metadata k hs).symm.trans (h1.metadata k hs))

theorem sameTree_of_like {h h' : Heap Id} {r r' : Root Id} (h1 : HeapLike NoEffects h h')
    (h2 : ChildrenBesides NoEffects (-1) r.instances r'.instances) (h3 : ∀ k, r.metadata.get? k = r'.metadata.get? k) : SameDecoded h' h r' r := by
  refine ⟨(besides_children h2 fun _ => id).symm, fun k => (h3 k).symm, fun id => ?_⟩
  rcases h1 id with ⟨a1, a2⟩ | ⟨i, j, a1, a2, a3⟩
  · exact .inl ⟨a2, a1⟩
  · refine .inr ⟨j, i, a2, a1, a3.className.symm, a3.reference.symm, a3.isService.symm, (besides_children a3.children fun _ => False.elim).symm,
      fun n => ?_⟩
    rcases a3.properties n (fun h => h) with ⟨b1, b2⟩ | ⟨v, w, b1, b2, b3⟩
    · rw [b1, b2]
    · rcases b3 with rfl | ⟨b3, -⟩
      · rw [b1, b2]
      · exact b3.elim

theorem sameTree_refl (h : Heap Id) (r : Root Id) : SameDecoded h h r r :=
  sameTree_of_like (heapLike_refl h) (sameChildren_refl _ _) fun _ => rfl

/-- Two chunks that are apart can be swapped. -/
theorem codecDecode_swap (quat : Quat) (f : FormatModel) (before : List Chunk) (x y : Chunk) (after : List Chunk)
    (hf : f.chunks = before ++ x :: y :: after) {e e' : Effects} (hx : Effect f.groupLookup e x.body) (hy : Effect f.groupLookup e' y.body)
    (ha : Apart e e') {h : Heap Id} {r : Root Id} (hk : (codecDecode quat f).2 = .ok (h, r)) :
    ∃ h' r', (codecDecode quat { f with chunks := before ++ y :: x :: after }).2 = .ok (h', r') ∧ SameDecoded h h' r r' := by
  have noInst : ∀ {e : Effects} {b : Body}, Effect f.groupLookup e b → ∀ c, b ≠ .inst c := by
    rintro e b he c rfl
    exact he
  simp only [codecDecode, codecLoop_chunks] at hk ⊢
  rw [hf] at hk
  rw [codecLoop_append] at hk ⊢
  rcases hb : codecLoop quat f 0 before {} with ⟨st0, fl0⟩
  rw [hb] at hk
  cases fl0 with
  | fail _ => cases hk
  | panic => cases hk
  | stop =>
    cases hk
    exact ⟨_, _, rfl, sameTree_refl _ _⟩
  | next =>
    simp only [codecLoop] at hk ⊢
    generalize 0 + before.length = n at *
    rcases hs : codecStep quat f n st0 x.body with ⟨a, fl1⟩
    rw [hs] at hk
    have hg1 : fl1.good = true := by
      cases fl1 <;> first | rfl | cases hk
    obtain ⟨rfl, h1⟩ := codecStep_only quat f _ hx hs hg1
    simp only at hk
    rcases hs2 : codecStep quat f (n + 1) a y.body with ⟨ab, fl2⟩
    rw [hs2] at hk
    have hg2 : fl2.good = true := by
      cases fl2 <;> first | rfl | cases hk
    obtain ⟨rfl, h2⟩ := codecStep_only quat f _ hy hs2 hg2
    simp only at hk
    -- the other order
    obtain ⟨b, h3, h4⟩ := codecStep_like quat f (n + 1) n (.inr (noInst hy)) h1 hs2 rfl
    obtain ⟨-, h5⟩ := codecStep_only quat f _ hy h3 rfl
    obtain ⟨ba, h6⟩ := codecStep_ids quat f n (n + 1) (noInst hx) h5.ids hs
    obtain ⟨-, h7⟩ := codecStep_only quat f _ hx h6 rfl
    obtain ⟨a2, h8, h9⟩ := codecStep_like quat f (n + 1) n (.inr (noInst hx)) h5 h6 rfl
    rw [hs] at h8
    cases h8
    have h10 := apart_state ha h4 h7 h2 h9
    rw [h3]
    simp only
    rw [h6]
    simp only
    rcases hl : codecLoop quat f (n + 1 + 1) after ab with ⟨st2, fl3⟩
    rw [hl] at hk
    have hg3 : fl3.good = true := by
      cases fl3 <;> first | rfl | cases hk
    obtain ⟨k, h11, h12⟩ := codecLoop_like quat f _ _ _ _ _ _ h10 hl hg3
    rw [h11]
    cases fl3 with
    | next => cases hk; exact ⟨_, _, rfl, sameTree_of_like h12.heap h12.roots fun k => h12.metadata k id⟩
    | stop => cases hk; exact ⟨_, _, rfl, sameTree_of_like h12.heap h12.roots fun k => h12.metadata k id⟩
    | fail _ => cases hg3
    | panic => cases hg3

/-! ## Reading them -/

theorem stepChunk_alike {slack : Bytes → Nat} {st st' st1 : LoopState} {raw : Raw} {fl : Bool} (hg : st.groups = st'.groups)
    (hl : st.chunks.length = st'.chunks.length) (h : stepChunk slack st raw = .ok (st1, fl)) :
    ∃ c st1', stepChunk slack st' raw = .ok (st1', fl) ∧ st1.chunks = st.chunks ++ [c] ∧ st1'.chunks = st'.chunks ++ [c] ∧
      st1.groups = st1'.groups := by
  simp only [stepChunk, hg, hl] at h ⊢
  rcases hb : decodeBody slack st'.groups raw with _ | ⟨body⟩ | e | _ <;> rw [hb] at h
  · cases h
    exact ⟨_, _, rfl, rfl, rfl, rfl⟩
  · cases h
    refine ⟨_, _, rfl, rfl, rfl, ?_⟩
    cases body <;> rfl
  · cases h
    exact ⟨_, _, rfl, rfl, rfl, rfl⟩
  · cases h

theorem stepChunk_alike_no {slack : Bytes → Nat} {st st' : LoopState} {raw : Raw} (hg : st.groups = st'.groups) :
    (∀ e, stepChunk slack st raw = .err e → stepChunk slack st' raw = .err e) ∧
    (stepChunk slack st raw = .panic → stepChunk slack st' raw = .panic) := by
  simp only [stepChunk, hg]
  rcases hb : decodeBody slack st'.groups raw with _ | ⟨body⟩ | e | _
  · exact ⟨nofun, nofun⟩
  · exact ⟨nofun, nofun⟩
  · exact ⟨nofun, nofun⟩
  · exact ⟨nofun, fun _ => rfl⟩

theorem decodeChunks_alike {lz : LZ4} {slack : Bytes → Nat} : ∀ (fuel : Nat) (st st' : LoopState) (b : Bytes), st.groups = st'.groups →
    st.chunks.length = st'.chunks.length →
    (decodeChunks lz slack fuel st b).2 = (decodeChunks lz slack fuel st' b).2 ∧
    (decodeChunks lz slack fuel st b).1.groups = (decodeChunks lz slack fuel st' b).1.groups ∧
    ∃ m, (decodeChunks lz slack fuel st b).1.chunks = st.chunks ++ m ∧ (decodeChunks lz slack fuel st' b).1.chunks = st'.chunks ++ m
  | 0, st, st', b, hg, hl => ⟨rfl, hg, [], by simp [decodeChunks], by simp [decodeChunks]⟩
  | fuel + 1, st, st', b, hg, hl => by
    simp only [decodeChunks]
    rcases hr : rawDecode lz b with ⟨raw, rest⟩ | e | _
    · dsimp only
      rcases hs : stepChunk slack st raw with ⟨st1, fl⟩ | e | _
      · obtain ⟨c, st1', h1, h2, h3, h4⟩ := stepChunk_alike hg hl hs
        rw [h1]
        cases fl with
        | true => exact ⟨rfl, h4, [c], h2, h3⟩
        | false =>
          obtain ⟨g1, g2, m, g3, g4⟩ := decodeChunks_alike (lz := lz) (slack := slack) fuel st1 st1' rest h4 (by rw [h2, h3]; simp [hl])
          exact ⟨g1, g2, c :: m, by rw [g3, h2]; simp, by rw [g4, h3]; simp⟩
      · rw [(stepChunk_alike_no hg).1 e hs]
        exact ⟨rfl, hg, [], by simp, by simp⟩
      · rw [(stepChunk_alike_no hg).2 hs]
        exact ⟨rfl, hg, [], by simp, by simp⟩
    · exact ⟨rfl, hg, [], by simp, by simp⟩
    · exact ⟨rfl, hg, [], by simp, by simp⟩

end Rbxl

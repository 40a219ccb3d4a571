import Verif.Rbxl.Insert
import Verif.Spec.Effects
/-!
# What a chunk has an effect on
-/
namespace Rbxl
open Go Rbxfile Spec

variable {e : Effects}

/-- The condition on the heaps. -/
def HeapLike (e : Effects) (h h' : Heap Id) : Prop :=
  ∀ id, (h.get? id = none ∧ h'.get? id = none) ∨ ∃ i j, h.get? id = some i ∧ h'.get? id = some j ∧ InstBesides e id i j

theorem sameValue_refl (v : Value Id) : ValueBesides e v v := .inl rfl

theorem sameChildren_refl (p : Id) (l : List Id) : ChildrenBesides e p l l := ⟨List.Sublist.refl _, fun _ _ => rfl⟩

theorem sameInst_refl (id : Id) (i : Inst Id) : InstBesides e id i i := by
  refine ⟨rfl, rfl, rfl, fun n _ => ?_, sameChildren_refl _ _⟩
  cases hn : i.properties.get? n with
  | none => exact .inl ⟨rfl, rfl⟩
  | some v => exact .inr ⟨v, v, rfl, rfl, sameValue_refl v⟩

theorem heapLike_refl (h : Heap Id) : HeapLike e h h := by
  intro id
  cases hi : h.get? id with
  | none => exact .inl ⟨rfl, rfl⟩
  | some i => exact .inr ⟨i, i, rfl, rfl, sameInst_refl id i⟩

theorem HeapLike.isSome {h h' : Heap Id} (hh : HeapLike e h h') (id : Id) : (h.get? id).isSome = (h'.get? id).isSome := by
  rcases hh id with ⟨h1, h2⟩ | ⟨i, j, h1, h2, -⟩ <;> rw [h1, h2] <;> rfl

theorem HeapLike.set {h h' : Heap Id} (hh : HeapLike e h h') {id : Id} {i j : Inst Id} (hi : InstBesides e id i j) :
    HeapLike e (h.set id i) (h'.set id j) := by
  intro id'
  by_cases hk : id' = id
  · subst hk
    exact .inr ⟨i, j, Map.get?_set_self _ _ _, Map.get?_set_self _ _ _, hi⟩
  · rw [Map.get?_set_ne _ _ hk, Map.get?_set_ne _ _ hk]
    exact hh id'

/-- Setting something that may differ on one side only. -/
theorem HeapLike.set_right {h h' : Heap Id} (hh : HeapLike e h h') {id : Id} {i j : Inst Id} (h1 : h.get? id = some i)
    (hi : InstBesides e id i j) : HeapLike e h (h'.set id j) := by
  intro id'
  by_cases hk : id' = id
  · subst hk
    exact .inr ⟨i, j, h1, Map.get?_set_self _ _ _, hi⟩
  · rw [Map.get?_set_ne _ _ hk]
    exact hh id'

theorem ChildrenBesides.append {p : Id} {l m : List Id} (h : ChildrenBesides e p l m) (c : Id) : ChildrenBesides e p (l ++ [c]) (m ++ [c]) :=
  ⟨h.1.append (List.Sublist.refl _), fun c' hc => by rw [List.count_append, List.count_append, h.2 c' hc]⟩

theorem ChildrenBesides.append_right {p : Id} {l m : List Id} (h : ChildrenBesides e p l m) {c : Id} (hc : e.child p c) :
    ChildrenBesides e p l (m ++ [c]) := by
  refine ⟨h.1.trans (List.sublist_append_left _ _), fun c' hc' => ?_⟩
  rw [List.count_append, h.2 c' hc', List.count_eq_zero_of_not_mem (a := c') (l := [c])]
  · rfl
  · intro hm
    rw [List.mem_singleton] at hm
    exact hc' (hm ▸ hc)

theorem instLoop_like (c : InstChunk) (n : BitVec 32) : ∀ (ids : List Id) (i : Nat) (h h' k' : Heap Id), HeapLike e h h' →
    instLoop c n i ids h' = .ok k' → ∃ k, instLoop c n i ids h = .ok k ∧ HeapLike e k k'
  | [], i, h, h', k', hh, hk => by
    rw [instLoop] at hk; cases hk
    exact ⟨h, rfl, hh⟩
  | r :: ids, i, h, h', k', hh, hk => by
    rw [instLoop] at hk ⊢
    rw [hh.isSome]
    split at hk
    · cases hk
    rename_i h1
    rw [if_neg h1]
    split at hk
    · cases hk
    rename_i h2
    rw [if_neg h2]
    split at hk
    · rename_i h3
      rw [if_pos h3]
      cases hs : c.getService[i]? with
      | none => rw [hs] at hk; cases hk
      | some s =>
        rw [hs] at hk
        exact instLoop_like c n ids _ _ _ _ (hh.set (sameInst_refl _ _)) hk
    · rename_i h3
      rw [if_neg h3]
      exact instLoop_like c n ids _ _ _ _ (hh.set (sameInst_refl _ _)) hk

theorem HeapLike.lookupRef {h h' : Heap Id} (hh : HeapLike e h h') : Rbxl.lookupRef h = Rbxl.lookupRef h' := by
  funext r
  rw [Rbxl.lookupRef, Rbxl.lookupRef, hh.isSome]

theorem propValue_like (quat : Quat) {h h' : Heap Id} (hh : HeapLike e h h') {s s' : List (Bytes × Bytes)} (hs : s = s' ∨ e.shared)
    (a : Arr) (i : Nat) {v' : Value Id} (hv : propValue quat h' s' a i = .ok v') :
    ∃ v, propValue quat h s a i = .ok v ∧ ValueBesides e v v' := by
  rcases hs with rfl | hs
  · refine ⟨v', ?_, sameValue_refl _⟩
    rw [← hv, propValue.eq_def, propValue.eq_def, hh.lookupRef]
  · by_cases ha : ∃ vs, a = .plain .sharedString vs
    · obtain ⟨vs, rfl⟩ := ha
      simp only [propValue] at hv ⊢
      split at hv
      · have h1 : ∃ t, v' = .sharedString t := by
          split at hv <;> cases hv <;> exact ⟨_, rfl⟩
        split
        · exact ⟨_, rfl, .inr ⟨hs, ⟨_, rfl⟩, h1⟩⟩
        · exact ⟨_, rfl, .inr ⟨hs, ⟨_, rfl⟩, h1⟩⟩
      · cases hv
    · refine ⟨v', ?_, sameValue_refl _⟩
      rw [← hv]
      rcases a with ⟨t, vs⟩ | vs | ⟨w, p⟩
      · cases t <;> first | exact absurd ⟨_, rfl⟩ ha | simp only [propValue, hh.lookupRef]
      · rfl
      · rfl

theorem propLoop_like {value value' : Nat → Res (Value Id)}
    (hv : ∀ i v', value' i = .ok v' → ∃ v, value i = .ok v ∧ ValueBesides e v v') (name : Bytes) :
    ∀ (ids : List Id) (i : Nat) (h h' k' : Heap Id), HeapLike e h h' →
    propLoop value' name i ids h' = .ok k' → ∃ k, propLoop value name i ids h = .ok k ∧ HeapLike e k k'
  | [], i, h, h', k', hh, hk => by
    rw [propLoop] at hk; cases hk
    exact ⟨h, rfl, hh⟩
  | r :: ids, i, h, h', k', hh, hk => by
    rw [propLoop] at hk ⊢
    cases hv' : value' i with
    | panic => rw [hv'] at hk; cases hk
    | err _ => rw [hv'] at hk; cases hk
    | ok v' =>
      rw [hv'] at hk
      obtain ⟨v, h1, h2⟩ := hv i v' hv'
      rw [h1]
      simp only at hk ⊢
      rcases hh r with ⟨-, h4⟩ | ⟨a, b, h3, h4, h5⟩
      · rw [h4] at hk; cases hk
      · rw [h4] at hk
        rw [h3]
        simp only at hk ⊢
        refine propLoop_like hv name ids _ _ _ _ (hh.set (i := { a with properties := a.properties.set name v })
          (j := { b with properties := b.properties.set name v' }) ⟨h5.className, h5.reference, h5.isService, fun n hn => ?_, h5.children⟩) hk
        by_cases hnn : n = name
        · subst hnn
          exact .inr ⟨v, v', Map.get?_set_self _ _ _, Map.get?_set_self _ _ _, h2⟩
        · rw [Map.get?_set_ne _ _ hnn, Map.get?_set_ne _ _ hnn]
          exact h5.properties n hn

/-- The loop alone: it sets one property of the instances. -/
theorem propLoop_only {value : Nat → Res (Value Id)} {name : Bytes} :
    ∀ (ids : List Id) (i : Nat) (h h' k' : Heap Id), (∀ id ∈ ids, e.property id name) → HeapLike e h h' →
    propLoop value name i ids h' = .ok k' → HeapLike e h k'
  | [], i, h, h', k', _, hh, hk => by
    rw [propLoop] at hk; cases hk
    exact hh
  | r :: ids, i, h, h', k', hp, hh, hk => by
    rw [propLoop] at hk
    split at hk
    · cases hk
    · cases hk
    rename_i v hv
    rcases hh r with ⟨-, h4⟩ | ⟨a, b, h3, h4, h5⟩
    · rw [h4] at hk; cases hk
    · rw [h4] at hk
      simp only at hk
      refine propLoop_only ids _ _ _ _ (fun id hid => hp id (List.mem_cons_of_mem _ hid)) (hh.set_right h3
        (j := { b with properties := b.properties.set name v }) ⟨h5.className, h5.reference, h5.isService, fun n hn => ?_, h5.children⟩) hk
      have hnn : n ≠ name := fun hx => hn (hx ▸ hp r (List.mem_cons_self ..))
      rw [Map.get?_set_ne _ _ hnn]
      exact h5.properties n hn

/-- The condition on the states of the decoder. -/
structure StLike (e : Effects) (st st' : DecState) : Prop where
  heap : HeapLike e st.heap st'.heap
  shared : st.shared = st'.shared ∨ e.shared
  roots : ChildrenBesides e (-1) st.root.instances st'.root.instances
  metadata : ∀ k, ¬ e.metadata k → st.root.metadata.get? k = st'.root.metadata.get? k

theorem stLike_refl (st : DecState) : StLike e st st := ⟨heapLike_refl _, .inl rfl, sameChildren_refl _ _, fun _ _ => rfl⟩

theorem parentLoop_like (ic ic' : Nat) (n : BitVec 32) : ∀ (l : List (Id × Id)) (i : Nat) (st st' k' : DecState), StLike e st st' →
    parentLoop ic n i l st' = (k', .next) → ∃ k, parentLoop ic' n i l st = (k, .next) ∧ StLike e k k'
  | [], i, st, st', k', hh, hk => by
    rw [parentLoop] at hk; cases hk
    exact ⟨st, rfl, hh⟩
  | (c, p) :: l, i, st, st', k', hh, hk => by
    rw [parentLoop] at hk ⊢
    split at hk
    · cases hk
    rename_i h1
    rw [if_neg h1]
    have hc : (st.heap.get? c).isNone = (st'.heap.get? c).isNone := by
      rcases hh.heap c with ⟨h1, h2⟩ | ⟨i, j, h1, h2, -⟩ <;> rw [h1, h2] <;> rfl
    rw [hc]
    split at hk
    · rename_i h2
      rw [if_pos h2]
      refine parentLoop_like ic ic' n l _ _ _ _ ?_ hk
      exact ⟨hh.heap, hh.shared, hh.roots, hh.metadata⟩
    rename_i h2
    rw [if_neg h2]
    split at hk
    · rename_i h3
      rw [if_pos h3]
      refine parentLoop_like ic ic' n l _ _ _ _ ?_ hk
      exact ⟨hh.heap, hh.shared, ChildrenBesides.append hh.roots c, hh.metadata⟩
    rename_i h3
    rw [if_neg h3]
    rcases hh.heap p with ⟨h4, h5⟩ | ⟨a, b, h4, h5, h6⟩
    · rw [h5] at hk
      rw [h4]
      exact parentLoop_like ic ic' n l _ _ _ _ hh hk
    · rw [h5] at hk
      rw [h4]
      simp only at hk ⊢
      refine parentLoop_like ic ic' n l _ _ _ _ ?_ hk
      exact ⟨hh.heap.set (i := { a with children := a.children ++ [c] })
        (j := { b with children := b.children ++ [c] }) ⟨h6.className, h6.reference, h6.isService, h6.properties,
        ChildrenBesides.append h6.children c⟩, hh.shared, hh.roots, hh.metadata⟩

/-- The loop alone: it adds children. -/
theorem parentLoop_only (ic : Nat) (n : BitVec 32) : ∀ (l : List (Id × Id)) (i : Nat) (st st' k' : DecState),
    (∀ x ∈ l, e.child x.2 x.1) → StLike e st st' → parentLoop ic n i l st' = (k', .next) → StLike e st k'
  | [], i, st, st', k', _, hh, hk => by
    rw [parentLoop] at hk; cases hk
    exact hh
  | (c, p) :: l, i, st, st', k', hp, hh, hk => by
    have hx : e.child p c := hp (c, p) (List.mem_cons_self ..)
    have hl : ∀ x ∈ l, e.child x.2 x.1 := fun x hx => hp x (List.mem_cons_of_mem _ hx)
    rw [parentLoop] at hk
    split at hk
    · cases hk
    split at hk
    · refine parentLoop_only ic n l _ _ _ _ hl ?_ hk
      exact ⟨hh.heap, hh.shared, hh.roots, hh.metadata⟩
    split at hk
    · rename_i h3
      subst h3
      refine parentLoop_only ic n l _ _ _ _ hl ?_ hk
      exact ⟨hh.heap, hh.shared, ChildrenBesides.append_right hh.roots hx, hh.metadata⟩
    rcases hh.heap p with ⟨h4, h5⟩ | ⟨a, b, h4, h5, h6⟩
    · rw [h5] at hk
      exact parentLoop_only ic n l _ _ _ _ hl hh hk
    · rw [h5] at hk
      simp only at hk
      refine parentLoop_only ic n l _ _ _ _ hl ?_ hk
      exact ⟨hh.heap.set_right h4 (j := { b with children := b.children ++ [c] }) ⟨h6.className, h6.reference, h6.isService,
        h6.properties, ChildrenBesides.append_right h6.children hx⟩, hh.shared, hh.roots, hh.metadata⟩

theorem foldl_like : ∀ (vs : List (Bytes × Bytes)) (m m' : Map Bytes Bytes) (k : Bytes),
    m.get? k = m'.get? k → (vs.foldl (fun m kv => m.set kv.1 kv.2) m).get? k = (vs.foldl (fun m kv => m.set kv.1 kv.2) m').get? k
  | [], _, _, _, h => h
  | v :: vs, m, m', k, h => by
    rw [List.foldl_cons, List.foldl_cons]
    refine foldl_like vs _ _ k ?_
    rw [Map.get?_set, Map.get?_set, h]

theorem foldl_only : ∀ (vs : List (Bytes × Bytes)) (m : Map Bytes Bytes) (k : Bytes), (∀ v ∈ vs, k ≠ v.1) →
    (vs.foldl (fun m kv => m.set kv.1 kv.2) m).get? k = m.get? k
  | [], _, _, _ => rfl
  | v :: vs, m, k, h => by
    rw [List.foldl_cons, foldl_only vs _ k fun x hx => h x (List.mem_cons_of_mem _ hx), Map.get?_set_ne _ _ (h v (List.mem_cons_self ..))]

/-- The end of a chunk with which decoding does not fail. -/
def Flow.good : Flow → Bool
  | .next => true
  | .stop => true
  | _ => false

theorem parentLoop_goodFlow (ic : Nat) (n : BitVec 32) : ∀ (l : List (Id × Id)) (i : Nat) (st k : DecState) (fl : Flow),
    parentLoop ic n i l st = (k, fl) → fl.good = true → fl = .next
  | [], i, st, k, fl, h, _ => by rw [parentLoop] at h; cases h; rfl
  | (c, p) :: l, i, st, k, fl, h, hg => by
    rw [parentLoop] at h
    split at h
    · cases h; cases hg
    split at h
    · exact parentLoop_goodFlow ic n l _ _ _ _ h hg
    split at h
    · exact parentLoop_goodFlow ic n l _ _ _ _ h hg
    split at h <;> exact parentLoop_goodFlow ic n l _ _ _ _ h hg

theorem codecStep_like (quat : Quat) (f : FormatModel) (ic ic' : Nat) {st st' k' : DecState} {b : Body} {fl : Flow}
    (hic : ic' = ic ∨ ∀ c, b ≠ .inst c) (hh : StLike e st st') (hk : codecStep quat f ic st' b = (k', fl)) (hg : fl.good = true) :
    ∃ k, codecStep quat f ic' st b = (k, fl) ∧ StLike e k k' := by
  cases b with
  | inst c =>
    rcases hic with rfl | hic
    rotate_left
    · exact (hic c rfl).elim
    simp only [codecStep] at hk ⊢
    split at hk
    · cases hk; cases hg
    rename_i h1
    rw [if_neg h1]
    split at hk
    · cases hk; cases hg
    rename_i h2
    rw [if_neg h2]
    split at hk
    · cases hk; cases hg
    · cases hk; cases hg
    rename_i h' h3
    obtain ⟨h, h4, h5⟩ := instLoop_like c _ _ _ _ _ _ hh.heap h3
    rw [h4]
    simp only
    split at hk
    · cases hk; cases hg
    rename_i h6
    rw [if_neg h6]
    cases hk
    exact ⟨_, rfl, h5, hh.shared, hh.roots, hh.metadata⟩
  | prop c =>
    simp only [codecStep] at hk ⊢
    split at hk
    · cases hk; cases hg
    rename_i h1
    rw [if_neg h1]
    split at hk
    · cases hk
      exact ⟨_, rfl, hh.heap, hh.shared, hh.roots, hh.metadata⟩
    rename_i inst h2
    split at hk
    · cases hk
      exact ⟨_, rfl, hh.heap, hh.shared, hh.roots, hh.metadata⟩
    rename_i a h3
    split at hk
    · cases hk; cases hg
    rename_i h4
    rw [if_neg h4]
    split at hk
    · cases hk; cases hg
    · cases hk; cases hg
    rename_i h' h5
    obtain ⟨h, h6, h7⟩ := propLoop_like (fun i v' hv => propValue_like quat hh.heap hh.shared a i hv) c.name _ _ _ _ _ hh.heap h5
    rw [h6]
    cases hk
    exact ⟨_, rfl, h7, hh.shared, hh.roots, hh.metadata⟩
  | parent c =>
    simp only [codecStep] at hk ⊢
    split at hk
    · cases hk; cases hg
    rename_i h1
    rw [if_neg h1]
    split at hk
    · cases hk; cases hg
    rename_i h2
    rw [if_neg h2]
    have := parentLoop_goodFlow _ _ _ _ _ _ _ hk hg
    subst this
    exact parentLoop_like _ _ _ _ _ _ _ _ hh hk
  | metadata vs =>
    simp only [codecStep] at hk ⊢
    cases hk
    exact ⟨_, rfl, hh.heap, hh.shared, hh.roots, fun k hk => foldl_like vs _ _ k (hh.metadata k hk)⟩
  | shared c => cases hk; exact ⟨_, rfl, hh.heap, .inl rfl, hh.roots, hh.metadata⟩
  | end_ _ => cases hk; exact ⟨_, rfl, hh⟩
  | unknown _ _ => cases hk; exact ⟨_, rfl, hh⟩
  | errored _ _ => cases hk; exact ⟨_, rfl, hh⟩

theorem codecLoop_like (quat : Quat) (f : FormatModel) : ∀ (cs : List Chunk) (ic : Nat) (st st' k' : DecState) (fl : Flow),
    StLike e st st' → codecLoop quat f ic cs st' = (k', fl) → fl.good = true →
    ∃ k, codecLoop quat f ic cs st = (k, fl) ∧ StLike e k k'
  | [], ic, st, st', k', fl, hh, hk, hg => by
    rw [codecLoop] at hk; cases hk
    exact ⟨st, rfl, hh⟩
  | c :: cs, ic, st, st', k', fl, hh, hk, hg => by
    rw [codecLoop] at hk ⊢
    rcases hs : codecStep quat f ic st' c.body with ⟨s1, fl1⟩
    rw [hs] at hk
    have hg1 : fl1.good = true := by
      cases fl1 <;> first | rfl | (cases hk; exact hg)
    obtain ⟨k1, h1, h2⟩ := codecStep_like quat f ic ic (.inl rfl) hh hs hg1
    rw [h1]
    cases fl1 with
    | next => exact codecLoop_like quat f cs _ _ _ _ _ h2 hk hg
    | stop => cases hk; exact ⟨_, rfl, h2⟩
    | fail _ => cases hg1
    | panic => cases hg1

/-- What a chunk has an effect on, given the instances of the classes. -/
def Effect (groups : Map (BitVec 32) (Nat × InstChunk)) (e : Effects) : Body → Prop
  | .prop c => ∀ i inst, groups.get? c.classID = some (i, inst) → ∀ id ∈ inst.ids, e.property id c.name
  | .parent c => ∀ x ∈ c.children.zip c.parents, e.child x.2 x.1
  | .metadata vs => ∀ v ∈ vs, e.metadata v.1
  | .shared _ => e.shared
  | .inst _ => False
  | .end_ _ => False
  | .unknown _ _ => True
  | .errored _ _ => True

theorem codecStep_only (quat : Quat) (f : FormatModel) (ic : Nat) {st k : DecState} {b : Body} {fl : Flow}
    (he : Effect f.groupLookup e b) (hk : codecStep quat f ic st b = (k, fl)) (hg : fl.good = true) : fl = .next ∧ StLike e st k := by
  have hr := stLike_refl (e := e) st
  cases b with
  | inst c => exact he.elim
  | end_ c => exact he.elim
  | prop c =>
    simp only [codecStep] at hk
    split at hk
    · cases hk; cases hg
    split at hk
    · cases hk
      exact ⟨rfl, hr.heap, hr.shared, hr.roots, hr.metadata⟩
    rename_i inst h2
    split at hk
    · cases hk
      exact ⟨rfl, hr.heap, hr.shared, hr.roots, hr.metadata⟩
    rename_i a h3
    split at hk
    · cases hk; cases hg
    split at hk
    · cases hk; cases hg
    · cases hk; cases hg
    rename_i h' h5
    cases hk
    exact ⟨rfl, propLoop_only _ _ _ _ _ (he _ _ h2) hr.heap h5, hr.shared, hr.roots, hr.metadata⟩
  | parent c =>
    simp only [codecStep] at hk
    split at hk
    · cases hk; cases hg
    split at hk
    · cases hk; cases hg
    have := parentLoop_goodFlow _ _ _ _ _ _ _ hk hg
    subst this
    exact ⟨rfl, parentLoop_only _ _ _ _ _ _ _ he hr hk⟩
  | metadata vs =>
    simp only [codecStep] at hk
    cases hk
    refine ⟨rfl, hr.heap, hr.shared, hr.roots, fun k hk => (foldl_only vs _ k fun v hv hx => hk (hx ▸ he v hv)).symm⟩
  | shared c => cases hk; exact ⟨rfl, hr.heap, .inr he, hr.roots, hr.metadata⟩
  | unknown _ _ => cases hk; exact ⟨rfl, hr⟩
  | errored _ _ => cases hk; exact ⟨rfl, hr⟩

theorem codecStep_chunks (quat : Quat) (f : FormatModel) (l : List Chunk) (ic : Nat) (st : DecState) (b : Body) :
    codecStep quat { f with chunks := l } ic st b = codecStep quat f ic st b := by
  cases b <;> rfl

theorem codecLoop_chunks (quat : Quat) (f : FormatModel) (l : List Chunk) : ∀ (cs : List Chunk) (ic : Nat) (st : DecState),
    codecLoop quat { f with chunks := l } ic cs st = codecLoop quat f ic cs st
  | [], _, _ => rfl
  | c :: cs, ic, st => by
    rw [codecLoop, codecLoop, codecStep_chunks]
    rcases codecStep quat f ic st c.body with ⟨s, _ | _ | _ | _⟩
    · exact codecLoop_chunks quat f l cs _ _
    · rfl
    · rfl
    · rfl

/-- The same file, with a chunk that the codec ignores in the place of the chunk. -/
theorem codecDecode_ignored (quat : Quat) (f : FormatModel) (before : List Chunk) (c u : Chunk) (after : List Chunk)
    (hf : f.chunks = before ++ c :: after) (he : Effect f.groupLookup e c.body)
    (hu : (∃ s p, u.body = .unknown s p) ∨ ∃ s p, u.body = .errored s p) {h' : Heap Id} {r' : Root Id}
    (hk : (codecDecode quat f).2 = .ok (h', r')) :
    ∃ h r, (codecDecode quat { f with chunks := before ++ u :: after }).2 = .ok (h, r) ∧ SameBesides e h h' r r' := by
  have hu' : ∀ ic st, codecStep quat f ic st u.body = (st, .next) := by
    intro ic st
    rcases hu with ⟨s, p, e⟩ | ⟨s, p, e⟩ <;> rw [e] <;> rfl
  simp only [codecDecode, codecLoop_chunks] at hk ⊢
  rw [hf] at hk
  rw [codecLoop_append] at hk ⊢
  rcases hb : codecLoop quat f 0 before {} with ⟨st0, fl0⟩
  rw [hb] at hk
  cases fl0 with
  | fail _ => cases hk
  | panic => cases hk
  | stop =>
    cases hk
    exact ⟨_, _, rfl, heapLike_refl _, sameChildren_refl _ _, fun _ _ => rfl⟩
  | next =>
    simp only [codecLoop, hu'] at hk ⊢
    rcases hs : codecStep quat f (0 + before.length) st0 c.body with ⟨st1, fl1⟩
    rw [hs] at hk
    have hg1 : fl1.good = true := by
      cases fl1 <;> first | rfl | cases hk
    obtain ⟨rfl, h1⟩ := codecStep_only quat f _ he hs hg1
    simp only at hk
    rcases hl : codecLoop quat f (0 + before.length + 1) after st1 with ⟨st2, fl2⟩
    rw [hl] at hk
    have hg2 : fl2.good = true := by
      cases fl2 <;> first | rfl | cases hk
    obtain ⟨k, h2, h3⟩ := codecLoop_like quat f _ _ _ _ _ _ h1 hl hg2
    rw [h2]
    cases fl2 with
    | next => cases hk; exact ⟨_, _, rfl, h3.heap, h3.roots, h3.metadata⟩
    | stop => cases hk; exact ⟨_, _, rfl, h3.heap, h3.roots, h3.metadata⟩
    | fail _ => cases hg2
    | panic => cases hg2

end Rbxl

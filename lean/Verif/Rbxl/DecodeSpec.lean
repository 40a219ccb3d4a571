import Verif.Spec.DecodeBinary
import Verif.Rbxl.CodecLemmas
/-!
# The codec decodes what the chunks say
-/
namespace Rbxl
open Go Rbxfile Spec

/-! ### the vocabulary -/

theorem declared_snoc (pre : List Chunk) (c : Chunk) : declared (pre ++ [c]) = declared pre ++ c.body.ids := by
  simp only [declared, List.flatMap_append, List.flatMap_cons, List.flatMap_nil, List.append_nil]
  rfl

theorem declared_eq (cs : List Chunk) : declared cs = cs.flatMap (fun c => c.body.ids) := by
  rfl

theorem sharedOf_snoc (pre : List Chunk) (c : Chunk) :
    sharedOf (pre ++ [c]) = match c.body with | .shared x => x.values | _ => sharedOf pre := by
  simp only [sharedOf, List.filterMap_append]
  cases hb : c.body <;> simp [hb]

theorem pairsOf_snoc (pre : List Chunk) (c : Chunk) :
    pairsOf (pre ++ [c]) = pairsOf pre ++ match c.body with | .metadata vs => vs | _ => [] := by
  simp only [pairsOf, List.flatMap_append, List.flatMap_cons, List.flatMap_nil, List.append_nil]
  cases c.body <;> rfl

theorem linksOf_snoc (pre : List Chunk) (c : Chunk) :
    linksOf (pre ++ [c]) = linksOf pre ++ linksOfChunk (declared pre) c := by
  simp only [linksOf, List.length_append, List.length_singleton, List.range_succ, List.flatMap_append,
    List.flatMap_cons, List.flatMap_nil, List.append_nil]
  congr 1
  · rw [List.flatMap_def, List.flatMap_def]
    congr 1
    apply List.map_congr_left
    intro j hj
    have hj := List.mem_range.1 hj
    rw [List.getElem?_append_left hj, List.take_append_of_le_length (by omega)]
  · simp

theorem kidsIn_append (l m : List (Id × Id)) (p : Id) :
    childrenIn (l ++ m) p = childrenIn l p ++ childrenIn m p := by
  simp [childrenIn]

theorem linksOfChunk_mem {known : List Id} {c : Chunk} {l : Id × Id} (h : l ∈ linksOfChunk known c) :
    l.1 ∈ known ∧ (l.2 = -1 ∨ l.2 ∈ known) := by
  simp only [linksOfChunk] at h
  split at h
  · simp only [List.mem_filter, Bool.and_eq_true, decide_eq_true_eq, Bool.or_eq_true] at h
    exact h.2
  · cases h

theorem declared_take {cs : List Chunk} {j : Nat} {x : Id} (h : x ∈ declared (cs.take j)) : x ∈ declared cs := by
  rw [← List.take_append_drop j cs, declared, List.flatMap_append, List.mem_append]
  exact .inl h

theorem linksOf_mem {cs : List Chunk} {l : Id × Id} (h : l ∈ linksOf cs) :
    l.1 ∈ declared cs ∧ (l.2 = -1 ∨ l.2 ∈ declared cs) := by
  simp only [linksOf, List.mem_flatMap, List.mem_range] at h
  obtain ⟨j, _, h⟩ := h
  split at h
  · obtain ⟨h1, h2⟩ := linksOfChunk_mem h
    exact ⟨declared_take h1, h2.imp id declared_take⟩
  · cases h

theorem childrenIn_nil {cs : List Chunk} {p : Id} (h1 : p ≠ -1) (h2 : p ∉ declared cs) :
    childrenIn (linksOf cs) p = [] := by
  simp only [childrenIn, List.map_eq_nil_iff, List.filter_eq_nil_iff, decide_eq_true_eq]
  intro l hl e
  rcases (linksOf_mem hl).2 with h | h
  · exact h1 (e ▸ h)
  · exact h2 (e ▸ h)

/-! ### the loops -/

theorem instLoop_get (c : InstChunk) (n : BitVec 32) : ∀ (refs : List Id) (k : Nat) (h h' : Heap Id),
    instLoop c n k refs h = .ok h' → refs.Nodup →
    (∀ i id, refs[i]? = some id → h'.get? id = some ⟨c.className, [],
      c.isService && decide (c.getService[k + i]? = some 1#8), [], []⟩) ∧
    ∀ id, id ∉ refs → h'.get? id = h.get? id := by
  intro refs
  induction refs with
  | nil =>
    intro k h h' e _
    simp only [instLoop, Res.ok.injEq] at e; subst e
    exact ⟨by simp, fun _ _ => rfl⟩
  | cons r refs ih =>
    intro k h h' e hn
    rw [List.nodup_cons] at hn
    have key : ∀ b : Bool, b = (c.isService && decide (c.getService[k]? = some 1#8)) →
        instLoop c n (k + 1) refs (h.set r { className := c.className, isService := b }) = .ok h' →
        (∀ i id, (r :: refs)[i]? = some id → h'.get? id = some ⟨c.className, [],
          c.isService && decide (c.getService[k + i]? = some 1#8), [], []⟩) ∧
        ∀ id, id ∉ r :: refs → h'.get? id = h.get? id := by
      intro b hb e
      obtain ⟨h1, h2⟩ := ih _ _ _ e hn.2
      constructor
      · intro i id hi
        cases i with
        | zero =>
          simp only [List.getElem?_cons_zero, Option.some.injEq] at hi
          subst hi
          rw [h2 r hn.1, Map.get?_set_self, hb]; rfl
        | succ i =>
          rw [List.getElem?_cons_succ] at hi
          rw [h1 i id hi, show k + 1 + i = k + (i + 1) by omega]
      · intro id hid
        simp only [List.mem_cons, not_or] at hid
        rw [h2 id hid.2, Map.get?_set_ne _ _ hid.1]
    simp only [instLoop] at e
    split at e
    · cases e
    split at e
    · cases e
    split at e
    · rename_i hs
      split at e
      · cases e
      · rename_i s hg
        exact key _ (by rw [hs, hg]; simp only [Bool.true_and, Option.some.injEq]; rfl) e
    · rename_i hs
      exact key false (by simp only [Bool.not_eq_true] at hs; simp [hs]) e

theorem propLoop_get {value : Nat → Res (Value Id)} {name : Bytes} : ∀ (ids : List Id) (k : Nat) (h h' : Heap Id),
    propLoop value name k ids h = .ok h' → ids.Nodup →
    (∀ i id, ids[i]? = some id → ∃ v inst, value (k + i) = .ok v ∧ h.get? id = some inst ∧
      h'.get? id = some { inst with properties := inst.properties.set name v }) ∧
    ∀ id, id ∉ ids → h'.get? id = h.get? id := by
  intro ids
  induction ids with
  | nil =>
    intro k h h' e _
    simp only [propLoop, Res.ok.injEq] at e; subst e
    exact ⟨by simp, fun _ _ => rfl⟩
  | cons r ids ih =>
    intro k h h' e hn
    rw [List.nodup_cons] at hn
    simp only [propLoop] at e
    split at e
    · cases e
    · cases e
    rename_i v hv
    split at e
    · cases e
    rename_i inst hg
    obtain ⟨h1, h2⟩ := ih _ _ _ e hn.2
    constructor
    · intro i id hi
      cases i with
      | zero =>
        simp only [List.getElem?_cons_zero, Option.some.injEq] at hi
        subst hi
        exact ⟨v, inst, hv, hg, by rw [h2 r hn.1, Map.get?_set_self]⟩
      | succ i =>
        rw [List.getElem?_cons_succ] at hi
        obtain ⟨v', inst', a1, a2, a3⟩ := h1 i id hi
        have hne : id ≠ r := fun e => hn.1 (e ▸ List.mem_of_getElem? hi)
        rw [Map.get?_set_ne _ _ hne] at a2
        exact ⟨v', inst', by rw [← a1]; congr 1; omega, a2, a3⟩
    · intro id hid
      simp only [List.mem_cons, not_or] at hid
      rw [h2 id hid.2, Map.get?_set_ne _ _ hid.1]

/-- The links of a list of pairs that count. -/
def goodLinks (known : List Id) (ps : List (Id × Id)) : List (Id × Id) :=
  ps.filter fun l => decide (l.1 ∈ known) && (decide (l.2 = -1) || decide (l.2 ∈ known))

theorem parentLoop_get (ic : Nat) (n : BitVec 32) (known : List Id) (hm : (-1 : Id) ∉ known) :
    ∀ (ps : List (Id × Id)) (i : Nat) (st st' : DecState), parentLoop ic n i ps st = (st', .next) →
    st.heap.map Prod.fst = known →
    st'.heap.map Prod.fst = known ∧ st'.shared = st.shared ∧ st'.root.metadata = st.root.metadata ∧
    st'.root.instances = st.root.instances ++ childrenIn (goodLinks known ps) (-1) ∧
    ∀ id inst, st.heap.get? id = some inst → st'.heap.get? id =
      some { inst with children := inst.children ++ childrenIn (goodLinks known ps) id } := by
  intro ps
  induction ps with
  | nil =>
    intro i st st' e hk
    simp only [parentLoop, Prod.mk.injEq, and_true] at e; subst e
    exact ⟨hk, rfl, rfl, by simp [goodLinks, childrenIn], fun id inst h => by
      rw [h]; simp [goodLinks, childrenIn]⟩
  | cons p ps ih =>
    intro i st st' e hk
    obtain ⟨child, parent⟩ := p
    have mem : ∀ x, x ∈ known ↔ (st.heap.get? x).isSome := fun x => by rw [Map.get?_isSome, hk]
    simp only [parentLoop] at e
    split at e
    · simp at e
    split at e
    · rename_i hc
      have hc : child ∉ known := by rw [mem]; cases hg : st.heap.get? child <;> simp [hg] at hc ⊢
      have hgl : goodLinks known ((child, parent) :: ps) = goodLinks known ps := by
        simp [goodLinks, hc]
      rw [hgl]
      exact ih (i + 1) { st with warns := st.warns ++ [.childMissing ic i] } _ e hk
    rename_i hc
    have hc : child ∈ known := by rw [mem]; cases hg : st.heap.get? child <;> simp [hg] at hc ⊢
    split at e
    · rename_i hp
      subst hp
      have hgl : goodLinks known ((child, -1) :: ps) = (child, -1) :: goodLinks known ps := by
        simp [goodLinks, hc]
      obtain ⟨a1, a2, a3, a4, a5⟩ := ih _ _ _ e hk
      refine ⟨a1, a2, a3, ?_, ?_⟩
      · rw [a4, hgl]; simp [childrenIn]
      · intro id inst hg
        have hne : (-1 : Id) ≠ id := fun h => hm (by rw [h, mem, hg]; rfl)
        rw [a5 id inst hg, hgl]
        simp only [childrenIn, List.filter_cons, decide_eq_true_eq, if_neg hne]
    rename_i hp
    split at e
    · rename_i hg
      have hpk : parent ∉ known := by rw [mem, hg]; simp
      have hgl : goodLinks known ((child, parent) :: ps) = goodLinks known ps := by
        exact List.filter_cons_of_neg (by simp only [decide_eq_false hp, decide_eq_false hpk]; simp)
      rw [hgl]
      exact ih _ _ _ e hk
    · rename_i pi hg
      have hpk : parent ∈ known := by rw [mem, hg]; rfl
      have hgl : goodLinks known ((child, parent) :: ps) = (child, parent) :: goodLinks known ps := by
        simp [goodLinks, hc, hpk]
      obtain ⟨a1, a2, a3, a4, a5⟩ := ih _ _ _ e (by
        simp only [Map.fst_set_of_mem hg]; exact hk)
      refine ⟨a1, a2, a3, ?_, ?_⟩
      · rw [a4, hgl]; simp only [childrenIn, List.filter_cons, decide_eq_true_eq, if_neg hp]
      · intro id inst hgi
        by_cases hid : id = parent
        · subst hid
          rw [hg] at hgi; cases hgi
          rw [a5 id _ (Map.get?_set_self _ _ _), hgl]; simp [childrenIn]
        · have hne : parent ≠ id := fun h => hid h.symm
          rw [a5 id inst (by simp only [Map.get?_set_ne _ _ hid]; exact hgi), hgl]
          simp only [childrenIn, List.filter_cons, decide_eq_true_eq, if_neg hne]

/-- The value of an element of a property array is the one it stands for. -/
theorem propValue_iff {quat : Quat} {h : Heap Id} {shared : List (Bytes × Bytes)} {a : Arr} {i : Nat} {v : Value Id} :
    propValue quat h shared a i = .ok v ↔ Reads quat (h.map Prod.fst) shared a i v := by
  constructor
  · intro e
    unfold propValue at e
    split at e
    · split at e
      · rename_i x hx
        cases e
        have : lookupRef h x.refNum = if x.refNum ∈ h.map Prod.fst then some x.refNum else none := by
          simp only [lookupRef, Map.get?_isSome]
        rw [this]
        exact .reference hx
      · cases e
    · split at e
      · rename_i k hk
        have := Reads.sharedString (quat := quat) (known := h.map Prod.fst) (shared := shared) hk
        split at e <;> cases e <;> (rename_i hs; rw [hs] at this; exact this)
      · cases e
    · rename_i h1 h2
      split at e
      · rename_i x hx
        split at e
        · rename_i y hy
          cases e
          exact .plain (fun e => h1 (e ▸ rfl)) (fun e => h2 (e ▸ rfl)) hx hy
        · cases e
      · cases e
    · cases e
    · split at e
      · cases e
      · rename_i hp
        obtain ⟨o, ho, e⟩ := Res.bind_eq_ok.1 e
        split at e
        · split at e
          · cases e
            rename_i hd
            exact .some hp ho hd
          · cases e
        · cases e
      · rename_i hp
        cases e
        exact .none hp
  · intro e
    cases e with
    | reference hx =>
      simp only [propValue, hx]
      simp only [lookupRef, Map.get?_isSome]
    | sharedString hx =>
      simp only [propValue, hx]
      split <;> rename_i hs <;> simp [hs]
    | plain h1 h2 hx hd =>
      rename_i t vs x
      cases t <;> first | exact absurd rfl h1 | exact absurd rfl h2 | simp only [propValue, hx, hd]
    | some hp hg hd => simp [propValue, hp, hg, hd]
    | none hp => simp [propValue, hp]

theorem reads_congr {quat : Quat} {known known' : List Id} {shared a i v} (h : ∀ x, x ∈ known ↔ x ∈ known')
    (hr : Reads quat known shared a i v) : Reads quat known' shared a i v := by
  cases hr with
  | reference hx =>
    have : known = known → True := fun _ => trivial
    rename_i vs x
    have e : (if x.refNum ∈ known then some x.refNum else none) = if x.refNum ∈ known' then some x.refNum else none := by
      simp only [h]
    rw [e]; exact .reference hx
  | sharedString hx => exact .sharedString hx
  | plain h1 h2 hx hd => exact .plain h1 h2 hx hd
  | some hp hg hd => exact .some hp hg hd
  | none hp => exact .none hp

end Rbxl

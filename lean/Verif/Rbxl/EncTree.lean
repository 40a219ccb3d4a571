import Verif.Rbxl.CodecEncode
import Verif.Spec.Tree
/-!
# The traversals of `robloxCodec.Encode` and of PRNT chunks on trees
-/
namespace Rbxl
open Go Rbxfile Spec

variable {ρ : Type} [DecidableEq ρ]

theorem Forest.get? {h : Heap ρ} {ps : List ρ} {l : Map ρ (Inst ρ)} (f : Forest h ps l) :
    ∀ x ∈ l, h.get? x.1 = some x.2 := by
  induction f with
  | nil => intro x hx; cases hx
  | cons hp _ _ ih1 ih2 =>
    intro x hx
    rcases List.mem_cons.1 hx with rfl | hx
    · exact hp
    · rcases List.mem_append.1 hx with hx | hx
      · exact ih1 x hx
      · exact ih2 x hx

theorem Forest.roots_mem {h : Heap ρ} {ps : List ρ} {l : Map ρ (Inst ρ)} (f : Forest h ps l) :
    ∀ p ∈ ps, p ∈ l.map Prod.fst := by
  induction f with
  | nil => intro x hx; cases hx
  | cons hp _ _ ih1 ih2 =>
    intro x hx
    rcases List.mem_cons.1 hx with rfl | hx
    · simp
    · have := ih2 x hx
      simp only [List.map_cons, List.map_append, List.mem_cons, List.mem_append]
      exact .inr (.inr this)

theorem Forest.children_mem {h : Heap ρ} {ps : List ρ} {l : Map ρ (Inst ρ)} (f : Forest h ps l) :
    ∀ x ∈ l, ∀ c ∈ x.2.children, c ∈ l.map Prod.fst := by
  induction f with
  | nil => intro x hx; cases hx
  | cons hp f1 _ ih1 ih2 =>
    intro x hx c hc
    simp only [List.map_cons, List.map_append, List.mem_cons, List.mem_append]
    rcases List.mem_cons.1 hx with rfl | hx
    · exact .inr (.inl (Forest.roots_mem f1 c hc))
    · rcases List.mem_append.1 hx with hx | hx
      · exact .inr (.inl (ih1 x hx c hc))
      · exact .inr (.inr (ih2 x hx c hc))

theorem Trees.length_le {h : Heap ρ} {ps : List ρ} {l : Map ρ (Inst ρ)} (t : Trees h ps l) :
    l.length ≤ h.length := by
  have hs : l.map Prod.fst ⊆ h.map Prod.fst := by
    intro p hp
    obtain ⟨x, hx, rfl⟩ := List.mem_map.1 hp
    have := Forest.get? t.1 x hx
    exact Map.get?_isSome.1 (by rw [this]; rfl)
  have := List.Nodup.length_le_of_subset t.2 hs
  simpa using this

/-! ### `addInstance` -/

theorem addAll_forest {h : Heap ρ} {ps : List ρ} {l : Map ρ (Inst ρ)} (f : Forest h ps l) :
    ∀ (fuel : Nat) (acc : Map ρ (Inst ρ)), l.length ≤ fuel → Map.Ok (acc ++ l) →
    ps.foldlM (fun acc p => addInst h fuel p acc) acc = .ok (acc ++ l) := by
  induction f with
  | nil => intro fuel acc _ _; simp
  | @cons p ps inst below rest hp f1 f2 ih1 ih2 =>
    intro fuel acc hfuel hok
    obtain _ | fuel := fuel
    · simp at hfuel
    have hnot : acc.get? p = none := by
      rw [Map.get?_eq_none]
      intro hm
      unfold Map.Ok at hok
      rw [List.map_append, List.nodup_append] at hok
      exact hok.2.2 p hm p (by simp) rfl
    simp only [List.length_cons, List.length_append] at hfuel
    have e1 : addInst h (fuel + 1) p acc = .ok (acc ++ [(p, inst)] ++ below) := by
      rw [addInst]
      simp only [hnot, Option.isSome_none, Bool.false_eq_true, if_false, hp]
      refine ih1 fuel _ (by omega) ?_
      unfold Map.Ok at hok ⊢
      refine hok.sublist ?_
      refine List.Sublist.map _ ?_
      rw [List.append_assoc]
      refine List.Sublist.append_left ?_ acc
      rw [List.cons_append, List.nil_append]
      exact (List.sublist_append_left _ _).cons_cons _
    simp only [List.foldlM_cons, e1, Res.ok_bind]
    rw [ih2 (fuel + 1) _ (by omega) (by simpa using hok)]
    simp

theorem instList_trees {h : Heap ρ} {ps : List ρ} {l : Map ρ (Inst ρ)} (t : Trees h ps l) :
    instList h ps = .ok l := by
  have := addAll_forest t.1 (h.length + 1) [] (by have := Trees.length_le t; omega)
    (by simpa using t.2)
  simpa [instList] using this

/-! ### `recInst` -/

/-- The children recorded for a parent. -/
def kidsOf {α β : Type} [DecidableEq β] (pairs : List (α × β)) (x : β) : List α :=
  (pairs.filter fun y => decide (y.2 = x)).map Prod.fst

@[simp] theorem kidsOf_append {α β : Type} [DecidableEq β] (a b : List (α × β)) (x : β) :
    kidsOf (a ++ b) x = kidsOf a x ++ kidsOf b x := by simp [kidsOf]

theorem kidsOf_cons {α β : Type} [DecidableEq β] (c : α) (p : β) (l : List (α × β)) (x : β) :
    kidsOf ((c, p) :: l) x = (if p = x then [c] else []) ++ kidsOf l x := by
  simp only [kidsOf, List.filter_cons]
  split <;> simp_all

/-- The children of a pointer according to a listing. -/
def childrenIn (l : Map ρ (Inst ρ)) : Option ρ → List ρ
  | none => []
  | some q => ((l.get? q).map Inst.children).getD []

theorem childrenIn_append {l l' : Map ρ (Inst ρ)} (h : Map.Ok (l ++ l')) (x : Option ρ) :
    childrenIn (l ++ l') x = childrenIn l x ++ childrenIn l' x := by
  cases x with
  | none => rfl
  | some q =>
    simp only [childrenIn, Map.get?_append]
    cases h1 : l.get? q with
    | none => simp
    | some v =>
      have : l'.get? q = none := by
        rw [Map.get?_eq_none]
        intro hm
        unfold Map.Ok at h
        rw [List.map_append, List.nodup_append] at h
        exact h.2.2 q (Map.get?_isSome.1 (by rw [h1]; rfl)) q hm rfl
      simp [this]

theorem recAll_forest {h : Heap ρ} {ps : List ρ} {l : Map ρ (Inst ρ)} (f : Forest h ps l) :
    ∀ (fuel : Nat) (par : Option ρ), l.length ≤ fuel → Map.Ok l →
    (∀ q, par = some q → q ∉ l.map Prod.fst) →
    ∃ pairs : List (ρ × Option ρ),
      (∀ acc : List (ρ × Option ρ), ps.foldlM (fun acc c => do
        let l ← recInst h fuel par c
        pure (acc ++ l)) acc = .ok (acc ++ pairs)) ∧
      pairs.length = l.length ∧
      (∀ q, q ∈ pairs.map Prod.fst ↔ q ∈ l.map Prod.fst) ∧
      (∀ x ∈ pairs, x.2 = par ∨ ∃ q ∈ l.map Prod.fst, x.2 = some q) ∧
      ∀ x, kidsOf pairs x = if x = par then ps else childrenIn l x := by
  induction f with
  | nil =>
    intro fuel par _ _ _
    refine ⟨[], by simp, rfl, by simp, by simp, ?_⟩
    intro x
    split
    · rfl
    · cases x <;> simp [kidsOf, childrenIn]
  | @cons p ps inst below rest hp f1 f2 ih1 ih2 =>
    intro fuel par hfuel hok hpar
    obtain _ | fuel := fuel
    · simp at hfuel
    simp only [List.length_cons, List.length_append] at hfuel
    have hok' : (p :: (below.map Prod.fst ++ rest.map Prod.fst)).Nodup := by
      simpa [Map.Ok] using hok
    obtain ⟨hp1, hbr⟩ := List.nodup_cons.1 hok'
    obtain ⟨hb, hr, hdis⟩ := List.nodup_append.1 hbr
    simp only [List.map_cons, List.map_append, List.mem_cons, List.mem_append, not_or] at hpar
    simp only [List.mem_append, not_or] at hp1
    obtain ⟨pa, a1, a2, a3, a4, a5⟩ := ih1 fuel (some p) (by omega) hb
      (by rintro q ⟨⟩; exact hp1.1)
    obtain ⟨pb, b1, b2, b3, b4, b5⟩ := ih2 (fuel + 1) par (by omega) hr
      (fun q hq => (hpar q hq).2.2)
    have e1 : recInst h (fuel + 1) par p = .ok (pa ++ [(p, par)]) := by
      rw [recInst]
      simp only [hp]
      rw [a1]
      simp
    refine ⟨pa ++ [(p, par)] ++ pb, ?_, ?_, ?_, ?_, ?_⟩
    · intro acc
      simp only [List.foldlM_cons, e1, Res.ok_bind, Res.pure_eq]
      have := b1 (acc ++ (pa ++ [(p, par)]))
      simp only [Res.pure_eq] at this
      rw [this, List.append_assoc]
    · simp only [List.length_append, List.length_cons, List.length_nil, a2, b2]; omega
    · intro q
      simp only [List.map_append, List.mem_append, a3, b3, List.map_cons, List.map_nil,
        List.mem_cons, List.not_mem_nil, or_false]
      exact ⟨fun h => by rcases h with (h | h) | h <;> simp [h],
        fun h => by rcases h with h | h | h <;> simp [h]⟩
    · intro x hx
      simp only [List.map_cons, List.map_append, List.mem_cons, List.mem_append]
      simp only [List.mem_append, List.mem_singleton] at hx
      rcases hx with (hx | rfl) | hx
      · rcases a4 x hx with e | ⟨q, hq, e⟩
        · exact .inr ⟨p, .inl rfl, e⟩
        · exact .inr ⟨q, .inr (.inl hq), e⟩
      · exact .inl rfl
      · rcases b4 x hx with e | ⟨q, hq, e⟩
        · exact .inl e
        · exact .inr ⟨q, .inr (.inr hq), e⟩
    · intro x
      rw [kidsOf_append, kidsOf_append, a5, b5]
      have hpp : par ≠ some p := fun e => (hpar p e).1 rfl
      by_cases hx : x = par
      · subst hx
        simp only [if_neg hpp, if_true]
        have hc : childrenIn below x = [] := by
          cases x with
          | none => rfl
          | some q => simp [childrenIn, Map.get?_eq_none.2 (hpar q rfl).2.1]
        simp [hc, kidsOf]
      · simp only [if_neg hx]
        have hk : kidsOf [(p, par)] x = [] := by simp [kidsOf, Ne.symm hx]
        rw [hk]
        have hcons : childrenIn ((p, inst) :: (below ++ rest)) x =
            childrenIn [(p, inst)] x ++ (childrenIn below x ++ childrenIn rest x) := by
          rw [← childrenIn_append (by simpa [Map.Ok] using hbr)]
          exact childrenIn_append (l := [(p, inst)]) hok x
        rw [hcons]
        by_cases hxp : x = some p
        · subst hxp
          have hc1 : childrenIn below (some p) = [] := by
            simp [childrenIn, Map.get?_eq_none.2 hp1.1]
          have hc2 : childrenIn rest (some p) = [] := by
            simp [childrenIn, Map.get?_eq_none.2 hp1.2]
          simp only [if_true, hc1, hc2, List.append_nil]
          simp [childrenIn, Map.get?]
        · have hc : childrenIn [(p, inst)] x = [] := by
            cases x with
            | none => rfl
            | some q =>
              have : p ≠ q := fun e => hxp (by rw [e])
              simp [childrenIn, Map.get?, this]
          simp [if_neg hxp, hc]

/-! ### the PRNT chunk of a tree -/

theorem refNum_of_idx {L : Map ρ (Inst ρ)} (hok : L.Ok) {i : Nat} {x : ρ × Inst ρ}
    (h : L[i]? = some x) : refNum L (some x.1) = BitVec.ofNat 32 i := by
  obtain ⟨hi, hx⟩ := List.getElem?_eq_some_iff.1 h
  have e : (L.map Prod.fst).idxOf? x.1 = some i := by
    rw [List.idxOf?_eq_some_iff]
    refine ⟨by simpa using hi, by simp [hx], ?_⟩
    intro j hj hjx
    have h1 : (L.map Prod.fst)[j]'(by simp; omega) = (L.map Prod.fst)[i]'(by simpa using hi) := by
      rw [hjx]; simp [hx]
    have := (List.getElem_inj hok).1 h1
    omega
  simp [refNum, e]

theorem refNum_not_mem {L : Map ρ (Inst ρ)} {p : ρ} (h : p ∉ L.map Prod.fst) :
    refNum L (some p) = -1 := by
  have : (L.map Prod.fst).idxOf? p = none := by simpa using h
  simp [refNum, this]

theorem idx_of_mem {L : Map ρ (Inst ρ)} {p : ρ} (h : p ∈ L.map Prod.fst) :
    ∃ (i : Nat) (inst : Inst ρ), L[i]? = some (p, inst) := by
  obtain ⟨x, hx, rfl⟩ := List.mem_map.1 h
  obtain ⟨i, hi⟩ := List.mem_iff_getElem?.1 hx
  exact ⟨i, x.2, hi⟩

theorem ofNat_inj {i j : Nat} (hi : i < 2 ^ 31) (hj : j < 2 ^ 31)
    (h : BitVec.ofNat 32 i = BitVec.ofNat 32 j) : i = j := by
  have := congrArg BitVec.toNat h
  simp only [BitVec.toNat_ofNat] at this
  omega

theorem ofNat_ne_neg {i : Nat} (hi : i < 2 ^ 31) : BitVec.ofNat 32 i ≠ (-1 : BitVec 32) := by
  intro h
  have := congrArg BitVec.toNat h
  have e : (-1 : BitVec 32).toNat = 4294967295 := rfl
  rw [e, BitVec.toNat_ofNat] at this
  omega

theorem refNum_inj {L : Map ρ (Inst ρ)} (hok : L.Ok) (hn : L.length < 2 ^ 31) {x y : Option ρ}
    (hx : ∀ p, x = some p → p ∈ L.map Prod.fst) (hy : ∀ p, y = some p → p ∈ L.map Prod.fst)
    (h : refNum L x = refNum L y) : x = y := by
  have lt : ∀ {i : Nat} {v : ρ × Inst ρ}, L[i]? = some v → i < 2 ^ 31 := by
    intro i v hv
    obtain ⟨hi, _⟩ := List.getElem?_eq_some_iff.1 hv
    omega
  cases x with
  | none =>
    cases y with
    | none => rfl
    | some q =>
      obtain ⟨j, v, hj⟩ := idx_of_mem (hy q rfl)
      have := refNum_of_idx hok hj
      simp only at this
      rw [this] at h
      exact absurd h.symm (ofNat_ne_neg (lt hj))
  | some p =>
    obtain ⟨i, u, hi⟩ := idx_of_mem (hx p rfl)
    have e1 := refNum_of_idx hok hi
    simp only at e1
    rw [e1] at h
    cases y with
    | none => exact absurd h (ofNat_ne_neg (lt hi))
    | some q =>
      obtain ⟨j, v, hj⟩ := idx_of_mem (hy q rfl)
      have e2 := refNum_of_idx hok hj
      simp only at e2
      rw [e2] at h
      have := ofNat_inj (lt hi) (lt hj) h
      subst this
      rw [hi] at hj
      cases hj
      rfl

theorem parentLinks_trees {h : Heap ρ} {ps : List ρ} {L : Map ρ (Inst ρ)} (t : Trees h ps L) :
    ∃ pairs : List (ρ × Option ρ),
      parentLinks h L ps = .ok ⟨0, pairs.map (fun x => refNum L (some x.1)),
        pairs.map (fun x => refNum L x.2)⟩ ∧
      pairs.length = L.length ∧
      (∀ x ∈ pairs, x.1 ∈ L.map Prod.fst) ∧
      (∀ x ∈ pairs, ∀ q, x.2 = some q → q ∈ L.map Prod.fst) ∧
      kidsOf pairs none = ps ∧ ∀ x ∈ L, kidsOf pairs (some x.1) = x.2.children := by
  obtain ⟨pairs, h1, h2, h3, h4, h5⟩ := recAll_forest t.1 (h.length + 1) none
    (by have := Trees.length_le t; omega) t.2 (by simp)
  refine ⟨pairs, ?_, h2, ?_, ?_, by simpa using h5 none, ?_⟩
  · unfold parentLinks
    split
    · rename_i h0
      rw [h0] at h2
      have := List.length_eq_zero_iff.1 h2
      subst this
      rfl
    · rw [h1 []]
      simp [h2]
  · intro x hx
    exact (h3 x.1).1 (List.mem_map_of_mem (f := Prod.fst) hx)
  · intro x hx q hq
    rcases h4 x hx with e | ⟨q', hq', e⟩
    · rw [e] at hq; cases hq
    · rw [e] at hq; cases hq; exact hq'
  · intro x hx
    have := h5 (some x.1)
    simp only [reduceCtorEq, if_false] at this
    rw [this]
    simp [childrenIn, Map.get?_of_mem t.2 (k := x.1) (v := x.2) hx]

/-- The parents chunk in terms of instance ids. -/
theorem kidsOf_ids {L : Map ρ (Inst ρ)} (hok : L.Ok) (hn : L.length < 2 ^ 31)
    {pairs : List (ρ × Option ρ)}
    (hp : ∀ x ∈ pairs, ∀ q, x.2 = some q → q ∈ L.map Prod.fst) {y : Option ρ}
    (hy : ∀ p, y = some p → p ∈ L.map Prod.fst) :
    kidsOf ((pairs.map (fun x => refNum L (some x.1))).zip (pairs.map (fun x => refNum L x.2)))
      (refNum L y) = (kidsOf pairs y).map fun p => refNum L (some p) := by
  induction pairs with
  | nil => rfl
  | cons x pairs ih =>
    have ih := ih (fun z hz => hp z (List.mem_cons_of_mem _ hz))
    have hx := hp x (by simp)
    simp only [kidsOf, List.map_cons, List.zip_cons_cons, List.filter_cons] at ih ⊢
    by_cases e : x.2 = y
    · simp [e, ih]
    · have : refNum L x.2 ≠ refNum L y := fun e' => e (refNum_inj hok hn hx hy e')
      simp [e, this, ih]

/-! ### decoding a PRNT chunk -/

theorem parentLoop_good {ic : Nat} {n : BitVec 32} : ∀ (pairs : List (Id × Id)) (i : Nat)
    (st : DecState),
    (∀ x ∈ pairs, outOfBounds x.1 n = false ∧ (st.heap.get? x.1).isSome ∧
      (x.2 ≠ -1 → (st.heap.get? x.2).isSome)) →
    ∃ st', parentLoop ic n i pairs st = (st', .next) ∧ st'.warns = st.warns ∧
      st'.shared = st.shared ∧ st'.root.metadata = st.root.metadata ∧
      st'.root.instances = st.root.instances ++ kidsOf pairs (-1) ∧
      st'.heap.map Prod.fst = st.heap.map Prod.fst ∧
      ∀ q, q ≠ -1 → st'.heap.get? q = (st.heap.get? q).map fun inst =>
        { inst with children := inst.children ++ kidsOf pairs q } := by
  intro pairs
  induction pairs with
  | nil =>
    intro i st _
    refine ⟨st, rfl, rfl, rfl, rfl, by simp [kidsOf], rfl, ?_⟩
    intro q _
    cases st.heap.get? q <;> simp [kidsOf]
  | cons x pairs ih =>
    intro i st hx
    obtain ⟨child, parent⟩ := x
    obtain ⟨hb, hc, hp⟩ := hx _ (List.mem_cons_self ..)
    have hrest := fun z hz => hx z (List.mem_cons_of_mem _ hz)
    simp only at hb hc hp
    rw [parentLoop]
    simp only [hb, Bool.false_eq_true, if_false]
    have hnn : (st.heap.get? child).isNone = false := by
      cases h : st.heap.get? child
      · rw [h] at hc; cases hc
      · rfl
    simp only [hnn, Bool.false_eq_true, if_false]
    by_cases hpar : parent = -1
    · simp only [hpar, if_true]
      obtain ⟨st', g1, g2, g3, g4, g5, g6, g7⟩ := ih (i + 1)
        { st with root := { st.root with instances := st.root.instances ++ [child] } } hrest
      refine ⟨st', g1, g2, g3, g4, ?_, g6, ?_⟩
      · rw [g5, kidsOf_cons, if_pos rfl]; simp
      · intro q hq
        rw [g7 q hq, kidsOf_cons, if_neg (Ne.symm hq), List.nil_append]
    · have hsome := hp hpar
      simp only [if_neg hpar]
      cases hg : st.heap.get? parent with
      | none => rw [hg] at hsome; cases hsome
      | some inst =>
        simp only []
        have hkeys : (st.heap.set parent
            { inst with children := inst.children ++ [child] }).map Prod.fst =
            st.heap.map Prod.fst := by
          rw [Map.map_fst_set, if_pos]
          exact Map.get?_isSome.1 hsome
        obtain ⟨st', g1, g2, g3, g4, g5, g6, g7⟩ := ih (i + 1)
          { st with heap := (st.heap.set parent
            { inst with children := inst.children ++ [child] }) } (by
              intro z hz
              obtain ⟨k1, k2, k3⟩ := hrest z hz
              simp only [Map.get?_isSome, hkeys] at k2 k3 ⊢
              exact ⟨k1, k2, k3⟩)
        refine ⟨st', g1, g2, g3, g4, ?_, by rw [g6, hkeys], ?_⟩
        · rw [g5, kidsOf_cons, if_neg hpar, List.nil_append]
        · intro q hq
          rw [g7 q hq]
          simp only [Map.get?_set]
          by_cases hqp : q = parent
          · subst hqp
            rw [kidsOf_cons, if_pos rfl, if_pos rfl, hg]
            simp
          · rw [if_neg hqp, kidsOf_cons, if_neg (Ne.symm hqp), List.nil_append]

end Rbxl

import Verif.Spec.Declare
/-!
# What declarations produce
-/
namespace Declare
open Go Rbxfile Spec

theorem lastRef_append (a b : List (Nat × Instance)) (s : Bytes) :
    lastRef (a ++ b) s = (lastRef b s).or (lastRef a s) := by
  unfold lastRef
  split
  · rfl
  · rw [List.filter_append, List.getLast?_append]
    cases (List.filter (fun x => decide (x.2.reference = s)) b).getLast? <;> rfl

theorem lastRef_cons (x : Nat × Instance) (l : List (Nat × Instance)) (s : Bytes) :
    lastRef (x :: l) s = (lastRef l s).or (if s ≠ [] ∧ x.2.reference = s then some x.1 else none) := by
  rw [show x :: l = [x] ++ l from rfl, lastRef_append]
  congr 1
  unfold lastRef
  by_cases h : s = []
  · simp [h]
  · by_cases hx : x.2.reference = s <;> simp [h, hx]

theorem _root_.Spec.Declared.congr {h h' : Heap Nat} {ds : List Instance} {ps : List Nat} {l : List (Nat × Instance)}
    (hd : Declared h ds ps l)
    (hh : ∀ q ∈ l.map Prod.fst, ∀ i, h.get? q = some i → ∃ i', h'.get? q = some i' ∧ i'.className = i.className ∧
      i'.reference = i.reference ∧ i'.isService = i.isService ∧ i'.children = i.children) : Declared h' ds ps l := by
  induction hd with
  | nil => exact .nil
  | @cons d ds p ps inst below rest hp h1 h2 h3 hb hr ih1 ih2 =>
    obtain ⟨i', e1, e2, e3, e4, e5⟩ := hh p (by simp) inst hp
    refine .cons e1 (e2.trans h1) (e3.trans h2) (e4.trans h3) ?_ (ih2 fun q hq => hh q ?_)
    · rw [e5]
      exact ih1 fun q hq => hh q (by simp only [List.map_cons, List.map_append, List.mem_cons, List.mem_append]; exact .inr (.inl hq))
    · simp only [List.map_cons, List.map_append, List.mem_cons, List.mem_append]; exact .inr (.inr hq)

theorem _root_.Spec.Declared.length {h : Heap Nat} {ds : List Instance} {ps : List Nat} {l : List (Nat × Instance)}
    (hd : Declared h ds ps l) : ds.length = ps.length := by
  induction hd with
  | nil => rfl
  | cons _ _ _ _ _ _ _ ih => simp [ih]

theorem _root_.Spec.Declared.append {h : Heap Nat} {ds ds' : List Instance} {ps ps' : List Nat} {l l' : List (Nat × Instance)}
    (hd : Declared h ds ps l) (hd' : Declared h ds' ps' l') : Declared h (ds ++ ds') (ps ++ ps') (l ++ l') := by
  induction hd with
  | nil => exact hd'
  | cons hp h1 h2 h3 hb hr ih1 ih2 =>
    simp only [List.cons_append, List.append_assoc]
    exact .cons hp h1 h2 h3 hb ih2

/-- The instances `ds` have been built. -/
structure Built (s s' : State) (ds : List Instance) (ps : List Nat) (l : List (Nat × Instance)) : Prop where
  le : s.next ≤ s'.next
  decl : Declared s'.heap ds ps l
  range : l.map Prod.fst = List.range' s.next (s'.next - s.next)
  below : ∀ q, q < s.next → s'.heap.get? q = s.heap.get? q
  keys : ∀ q, (s'.heap.get? q).isSome ↔ (s.heap.get? q).isSome ∨ q ∈ l.map Prod.fst
  ok : s.heap.Ok → s'.heap.Ok
  fresh : ∀ q ∈ l.map Prod.fst, ∀ i, s'.heap.get? q = some i → i.properties = []
  refs : ∀ r, s'.refs.at r = (lastRef l r).or (s.refs.at r)
  props : s'.props = s.props ++ l.map fun x => (x.1, x.2.properties)

theorem Built.bounds {s s' : State} {ds : List Instance} {ps : List Nat} {l : List (Nat × Instance)}
    (h : Built s s' ds ps l) {q : Nat} : q ∈ l.map Prod.fst ↔ s.next ≤ q ∧ q < s'.next := by
  rw [h.range, List.mem_range'_1]
  have := h.le
  omega

theorem Built.trans {s s' s'' : State} {ds ds' : List Instance} {ps ps' : List Nat} {l l' : List (Nat × Instance)}
    (h : Built s s' ds ps l) (h' : Built s' s'' ds' ps' l') : Built s s'' (ds ++ ds') (ps ++ ps') (l ++ l') := by
  refine ⟨Nat.le_trans h.le h'.le, ?_, ?_, ?_, ?_, fun ho => h'.ok (h.ok ho), ?_, ?_, ?_⟩
  · refine (h.decl.congr ?_).append h'.decl
    intro q hq i hi
    refine ⟨i, ?_, rfl, rfl, rfl, rfl⟩
    rw [h'.below q (h.bounds.1 hq).2]
    exact hi
  · rw [List.map_append, h.range, h'.range]
    have h1 := h.le
    have h2 := h'.le
    have e : s'.next = s.next + 1 * (s'.next - s.next) := by omega
    rw [show s''.next - s.next = (s'.next - s.next) + (s''.next - s'.next) by omega, ← List.range'_append, ← e]
  · intro q hq
    rw [h'.below q (Nat.lt_of_lt_of_le hq h.le), h.below q hq]
  · intro q
    rw [h'.keys, h.keys, List.map_append, List.mem_append, or_assoc]
  · intro q hq i hi
    rw [List.map_append, List.mem_append] at hq
    rcases hq with hq | hq
    · rw [h'.below q (h.bounds.1 hq).2] at hi
      exact h.fresh q hq i hi
    · exact h'.fresh q hq i hi
  · intro r
    rw [h'.refs, h.refs, lastRef_append, Option.or_assoc]
  · rw [h'.props, h.props, List.map_append, List.append_assoc]

mutual
theorem build_built : ∀ (d : Instance) (s : State), ∃ l, Built s (build d s).2 [d] [(build d s).1] l
  | .mk cls ref ps cs, s => by
    let s0 : State :=
      { next := s.next + 1
        heap := s.heap.set s.next { className := cls, reference := ref }
        refs := if ref ≠ [] then s.refs.set ref (some s.next) else s.refs
        props := s.props ++ [(s.next, ps)] }
    obtain ⟨l, hb⟩ := buildAll_built cs s0
    have e : build (.mk cls ref ps cs) s = (s.next, { (buildAll cs s0).2 with
      heap := (buildAll cs s0).2.heap.set s.next { className := cls, reference := ref, children := (buildAll cs s0).1 } }) := by
      rw [build]
    have hself : (buildAll cs s0).2.heap.get? s.next = some { className := cls, reference := ref } := by
      rw [hb.below s.next (by simp [s0])]
      simp [s0]
    have hnot : s.next ∉ l.map Prod.fst := by
      intro h
      have := (hb.bounds.1 h).1
      have e : s0.next = s.next + 1 := rfl
      omega
    refine ⟨(s.next, .mk cls ref ps cs) :: (l ++ []), ?_⟩
    rw [e]
    have hle : s0.next ≤ (buildAll cs s0).2.next := hb.le
    have hs0 : s0.next = s.next + 1 := rfl
    refine ⟨?_, ?_, ?_, ?_, ?_, ?_, ?_, ?_, ?_⟩
    · simp only; omega
    · simp only
      refine .cons (inst := { className := cls, reference := ref, children := (buildAll cs s0).1 }) (by simp) rfl rfl rfl ?_ .nil
      refine hb.decl.congr ?_
      intro q hq i hi
      refine ⟨i, ?_, rfl, rfl, rfl, rfl⟩
      rw [Map.get?_set_ne]
      · exact hi
      · rintro rfl; exact hnot hq
    · simp only [List.append_nil, List.map_cons, hb.range]
      rw [hs0, show (buildAll cs s0).2.next - s.next = ((buildAll cs s0).2.next - (s.next + 1)) + 1 by omega, List.range'_succ]
    · intro q hq
      simp only
      rw [Map.get?_set_ne _ _ (by omega), hb.below q (by simp [s0]; omega)]
      simp only [s0]
      rw [Map.get?_set_ne _ _ (by omega)]
    · intro q
      simp only [List.append_nil, List.map_cons, List.mem_cons]
      rw [Map.get?_set]
      split
      · rename_i h; simp [h]
      · rename_i h
        rw [hb.keys]
        simp only [s0]
        rw [Map.get?_set_ne _ _ h]
        simp [h]
    · intro ho
      exact Map.ok_set (hb.ok (Map.ok_set ho _ _)) _ _
    · intro q hq i hi
      simp only at hi
      rw [Map.get?_set] at hi
      split at hi
      · cases hi; rfl
      · rename_i h
        simp only [List.append_nil, List.map_cons, List.mem_cons, h, false_or] at hq
        exact hb.fresh q hq i hi
    · intro r
      simp only [List.append_nil]
      rw [hb.refs, lastRef_cons, Option.or_assoc]
      congr 1
      simp only [s0, Instance.reference]
      by_cases h : ref = []
      · subst h
        by_cases hr : r = []
        · simp [hr]
        · have : ¬ ([] : Bytes) = r := fun e => hr e.symm
          simp [hr, this]
      · rw [if_pos h, References.at_set]
        by_cases hr : r = ref
        · subst hr
          simp [h]
        · have : ¬ ref = r := fun e => hr e.symm
          simp [hr, this]
    · simp only [List.append_nil, List.map_cons]
      rw [hb.props]
      simp [s0, Instance.properties]
theorem buildAll_built : ∀ (ds : List Instance) (s : State), ∃ l, Built s (buildAll ds s).2 ds (buildAll ds s).1 l
  | [], s => ⟨[], by
      rw [buildAll]
      exact ⟨Nat.le_refl _, .nil, by simp, fun _ _ => rfl, by simp, id, by simp, by simp [lastRef], by simp⟩⟩
  | d :: ds, s => by
    obtain ⟨l1, h1⟩ := build_built d s
    obtain ⟨l2, h2⟩ := buildAll_built ds (build d s).2
    rw [buildAll]
    exact ⟨l1 ++ l2, h1.trans h2⟩
end

theorem buildRoot_built : ∀ (ds : List Primary) (root : Root Nat) (s : State), ∃ l ps,
    Built s (buildRoot ds root s).2 (instancesOf ds) ps l ∧ (buildRoot ds root s).1.instances = root.instances ++ ps ∧
      ∀ k, (buildRoot ds root s).1.metadata.get? k = (lastMeta ds k).or (root.metadata.get? k)
  | [], root, s => ⟨[], [], ⟨Nat.le_refl _, .nil, by simp [buildRoot], fun _ _ => rfl, by simp [buildRoot], id, by simp,
      by simp [buildRoot, lastRef], by simp [buildRoot]⟩, by simp [buildRoot], by simp [buildRoot, lastMeta]⟩
  | .instance d :: ds, root, s => by
    obtain ⟨l1, h1⟩ := build_built d s
    obtain ⟨l2, ps, h2, h3, h4⟩ := buildRoot_built ds { root with instances := root.instances ++ [(build d s).1] } (build d s).2
    rw [buildRoot]
    refine ⟨l1 ++ l2, (build d s).1 :: ps, h1.trans h2, ?_, h4⟩
    rw [h3]; simp
  | .metadata k v :: ds, root, s => by
    obtain ⟨l, ps, h1, h2, h3⟩ := buildRoot_built ds { root with metadata := root.metadata.set k v } s
    rw [buildRoot]
    refine ⟨l, ps, h1, h2, fun k' => ?_⟩
    rw [h3, lastMeta, Option.or_assoc]
    congr 1
    simp only [Map.get?_set]
    by_cases h : k' = k
    · simp [h]
    · have : ¬ k = k' := fun e => h e.symm
      simp [h, this]

/-! ## Properties -/

theorem _root_.Go.Map.ok_erase {κ ν : Type} [DecidableEq κ] {m : Map κ ν} (h : m.Ok) (k : κ) : (m.erase k).Ok := by
  refine List.Nodup.sublist ?_ h
  induction m with
  | nil => exact List.Sublist.refl _
  | cons x m ih =>
    obtain ⟨k0, v0⟩ := x
    have h' : Map.Ok m := (List.nodup_cons.1 h).2
    simp only [Map.erase, List.map_cons]
    split
    · exact (ih h').trans (List.sublist_cons_self _ _)
    · exact (ih h').cons₂ _

/-- `inst.Properties[name] = value`. -/
def upd (m : Map Bytes (Value Nat)) (n : Bytes) : Option (Value Nat) → Map Bytes (Value Nat)
  | some v => m.set n v
  | none => m.erase n

theorem upd_ok {m : Map Bytes (Value Nat)} (h : m.Ok) (n : Bytes) (v : Option (Value Nat)) : (upd m n v).Ok := by
  cases v with
  | some v => exact Map.ok_set h _ _
  | none => exact Map.ok_erase h _

theorem upd_get (m : Map Bytes (Value Nat)) (n k : Bytes) (v : Option (Value Nat)) :
    (upd m n v).get? k = if k = n then v else m.get? k := by
  cases v with
  | some v => rw [upd, Map.get?_set]
  | none => rw [upd, Map.get?_erase]

/-- Properties of `i` after the assignments. -/
def after (C : Conv) (refs : References Nat) : List Property → Map Bytes (Value Nat) → Res (Map Bytes (Value Nat))
  | [], m => .ok m
  | q :: qs, m => do
    let v ← value C q.typ refs q.value
    after C refs qs (upd m q.name v)

theorem assign_eq (C : Conv) (refs : References Nat) (p : Nat) : ∀ (qs : List Property) (h : Heap Nat) (i : Inst Nat),
    h.get? p = some i → h.Ok → assign C refs p qs h = (after C refs qs i.properties >>= fun m => .ok (h.set p { i with properties := m }))
  | [], h, i, hi, ho => by
    simp only [assign, after, Res.ok_bind]
    have : h.set p i = h := by
      clear ho
      induction h with
      | nil => simp at hi
      | cons x h ih =>
        obtain ⟨k, v⟩ := x
        simp only [Map.get?] at hi
        simp only [Map.set]
        split
        · rename_i hk; rw [if_pos hk] at hi; cases hi; rw [hk]
        · rename_i hk; rw [if_neg hk] at hi; rw [ih hi]
    rw [show ({ i with properties := i.properties } : Inst Nat) = i from rfl, this]
  | q :: qs, h, i, hi, ho => by
    rw [assign, after]
    cases hv : value C q.typ refs q.value with
    | err e => rfl
    | panic => rfl
    | ok v =>
      simp only [Res.ok_bind]
      have e : setProp h p q.name v = h.set p { i with properties := upd i.properties q.name v } := by
        rw [setProp, hi]
        cases v <;> rfl
      rw [e, assign_eq C refs p qs _ { i with properties := upd i.properties q.name v } (Map.get?_set_self _ _ _) (Map.ok_set ho _ _)]
      congr 1
      funext m
      congr 1
      clear hi ho e
      induction h with
      | nil => simp [Map.set]
      | cons x h ih =>
        obtain ⟨k, w⟩ := x
        simp only [Map.set]
        split
        · simp [Map.set]
        · rename_i hk
          simp only [Map.set, hk, if_false, ih]

theorem lastProp_cons (q : Property) (qs : List Property) (n : Bytes) :
    lastProp (q :: qs) n = (lastProp qs n).or (if q.name = n then some q else none) := by
  unfold lastProp
  rw [show q :: qs = [q] ++ qs from rfl, List.filter_append, List.getLast?_append]
  congr 1
  by_cases h : q.name = n <;> simp [h]

theorem after_get (C : Conv) (refs : References Nat) (n : Bytes) : ∀ (qs : List Property) (m m' : Map Bytes (Value Nat)),
    after C refs qs m = .ok m' → m.Ok →
    m'.Ok ∧ (lastProp qs n = none → m'.get? n = m.get? n) ∧
    ∀ q, lastProp qs n = some q → value C q.typ refs q.value = .ok (m'.get? n)
  | [], m, m', h, ho => by
    cases h
    exact ⟨ho, fun _ => rfl, fun q hq => by cases hq⟩
  | q :: qs, m, m', h, ho => by
    rw [after] at h
    obtain ⟨v, hv, h⟩ := Res.bind_eq_ok.1 h
    obtain ⟨i1, i2, i3⟩ := after_get C refs n qs _ m' h (upd_ok ho _ _)
    refine ⟨i1, fun hn => ?_, fun q' hq' => ?_⟩
    · rw [lastProp_cons] at hn
      obtain ⟨h1, h2⟩ := Option.or_eq_none_iff.1 hn
      split at h2
      · cases h2
      · rename_i hne
        have hne' : ¬ n = q.name := fun e => hne e.symm
        rw [i2 h1, upd_get, if_neg hne']
    · rw [lastProp_cons] at hq'
      cases hl : lastProp qs n with
      | some q1 =>
        rw [hl] at hq'
        cases hq'
        exact i3 _ hl
      | none =>
        rw [hl] at hq'
        simp only [Option.none_or] at hq'
        split at hq'
        · rename_i hn
          cases hq'
          rw [hv, i2 hl, upd_get, if_pos hn.symm]
        · cases hq'

theorem value_noErr (C : Conv) (t : Byte) (refs : References Nat) (v : List (GoVal Nat)) (e : Err) :
    value C t refs v ≠ .err e := by
  unfold value
  split
  · nofun
  · split
    · nofun
    · have hc : ∀ (t : Ty) v, cases C t refs v ≠ .err e := by
        intro t v
        unfold cases
        split <;> nofun
      split
      · nofun
      · nofun
      · rename_i h
        intro h'
        cases h'
        exact absurd h (hc _ _)
      · nofun

theorem after_noErr (C : Conv) (refs : References Nat) (e : Err) : ∀ (qs : List Property) (m : Map Bytes (Value Nat)),
    after C refs qs m ≠ .err e
  | [], m => by rw [after]; nofun
  | q :: qs, m => by
    rw [after]
    cases hv : value C q.typ refs q.value with
    | err e' => exact absurd hv (value_noErr _ _ _ _ _)
    | panic => intro h; cases (h : Res.panic = Res.err e)
    | ok v => exact after_noErr C refs e qs _

theorem map_ext {ν : Type} : ∀ {m m' : Map Nat ν}, m.map Prod.fst = m'.map Prod.fst → m.Ok →
    (∀ k, m.get? k = m'.get? k) → m = m'
  | [], [], _, _, _ => rfl
  | [], _ :: _, h, _, _ => by cases h
  | _ :: _, [], h, _, _ => by cases h
  | (k, v) :: m, (k', v') :: m', h, ho, he => by
    simp only [List.map_cons, List.cons.injEq] at h
    obtain ⟨rfl, h⟩ := h
    have ho' := List.nodup_cons.1 ho
    have hv := he k
    simp only [Map.get?, if_true, Option.some.injEq] at hv
    subst hv
    congr 1
    refine map_ext h ho'.2 fun q => ?_
    have hq := he q
    simp only [Map.get?] at hq
    by_cases e : k = q
    · subst e
      rw [Map.get?_eq_none.2 ho'.1, Map.get?_eq_none.2 (h ▸ ho'.1)]
    · rwa [if_neg e, if_neg e] at hq

/-- The properties of all the instances have been set. -/
structure Assigned (C : Conv) (refs : References Nat) (l : List (Nat × List Property)) (h h' : Heap Nat) : Prop where
  keys : h'.map Prod.fst = h.map Prod.fst
  other : ∀ q, q ∉ l.map Prod.fst → h'.get? q = h.get? q
  props : ∀ x ∈ l, ∀ i, h.get? x.1 = some i → ∃ m, after C refs x.2 i.properties = .ok m ∧
    h'.get? x.1 = some { i with properties := m }

theorem map_fst_set_of_some {ν : Type} {h : Map Nat ν} {p : Nat} {i : ν} (hi : h.get? p = some i) (j : ν) :
    (h.set p j).map Prod.fst = h.map Prod.fst := by
  rw [Map.map_fst_set, if_pos]
  exact Map.get?_isSome.1 (by rw [hi]; rfl)

theorem assignAll_spec (C : Conv) (refs : References Nat) : ∀ (l : List (Nat × List Property)) (h : Heap Nat),
    (l.map Prod.fst).Nodup → h.Ok → (∀ x ∈ l, (h.get? x.1).isSome) →
    (∃ h', assignAll C refs l h = .ok h' ∧ Assigned C refs l h h') ∨
    (assignAll C refs l h = .panic ∧ ∃ x ∈ l, ∃ i, h.get? x.1 = some i ∧ after C refs x.2 i.properties = .panic)
  | [], h, _, _, _ => .inl ⟨h, rfl, rfl, fun _ _ => rfl, nofun⟩
  | (p, qs) :: l, h, hn, ho, hs => by
    obtain ⟨hn1, hn2⟩ := List.nodup_cons.1 hn
    obtain ⟨i, hi⟩ := Option.isSome_iff_exists.1 (hs (p, qs) (by simp))
    rw [assignAll, assign_eq C refs p qs h i hi ho]
    cases ha : after C refs qs i.properties with
    | err e => exact absurd ha (after_noErr _ _ _ _ _)
    | panic => exact .inr ⟨rfl, (p, qs), by simp, i, hi, ha⟩
    | ok m =>
      simp only [Res.ok_bind]
      have hne : ∀ x ∈ l, x.1 ≠ p := fun x hx e => hn1 (List.mem_map.2 ⟨x, hx, e⟩)
      have hg : ∀ x ∈ l, (h.set p { i with properties := m }).get? x.1 = h.get? x.1 := fun x hx =>
        Map.get?_set_ne _ _ (hne x hx)
      rcases assignAll_spec C refs l (h.set p { i with properties := m }) hn2 (Map.ok_set ho _ _)
        (fun x hx => by rw [hg x hx]; exact hs x (by simp [hx])) with ⟨h', e, a⟩ | ⟨e, x, hx, j, hj, hp⟩
      · refine .inl ⟨h', e, a.keys.trans (map_fst_set_of_some hi _), ?_, ?_⟩
        · intro q hq
          simp only [List.map_cons, List.mem_cons, not_or] at hq
          rw [a.other q hq.2, Map.get?_set_ne _ _ hq.1]
        · intro x hx j hj
          rcases List.mem_cons.1 hx with rfl | hx
          · simp only at hj ⊢
            rw [hi] at hj
            cases hj
            exact ⟨m, ha, by rw [a.other p hn1, Map.get?_set_self]⟩
          · exact a.props x hx j (by rw [hg x hx]; exact hj)
      · exact .inr ⟨e, x, by simp [hx], j, by rw [← hg x hx]; exact hj, hp⟩

/-- The order of the instances does not matter. -/
theorem assignAll_perm (C : Conv) (refs : References Nat) {l l' : List (Nat × List Property)} {h : Heap Nat}
    (hp : l.Perm l') (hn : (l.map Prod.fst).Nodup) (ho : h.Ok) (hs : ∀ x ∈ l, (h.get? x.1).isSome) :
    assignAll C refs l h = assignAll C refs l' h := by
  have hn' : (l'.map Prod.fst).Nodup := (hp.map _).nodup_iff.1 hn
  have key : ∀ {l l' : List (Nat × List Property)}, l.Perm l' → ∀ {h1 : Heap Nat}, Assigned C refs l h h1 →
      ∀ x ∈ l', ∀ i, h.get? x.1 = some i → after C refs x.2 i.properties = .panic → False := by
    intro l l' hp h1 a x hx i hi hc
    obtain ⟨m, hm, -⟩ := a.props x (hp.mem_iff.2 hx) i hi
    rw [hm] at hc
    cases hc
  rcases assignAll_spec C refs l h hn ho hs with ⟨h1, e1, a1⟩ | ⟨e1, x, hx, i, hi, hc⟩ <;>
  rcases assignAll_spec C refs l' h hn' ho (fun x hx => hs x (hp.mem_iff.2 hx)) with ⟨h2, e2, a2⟩ | ⟨e2, y, hy, j, hj, hd⟩
  · rw [e1, e2]
    congr 1
    refine map_ext (a1.keys.trans a2.keys.symm) ?_ fun q => ?_
    · rw [Map.Ok, a1.keys]; exact ho
    · by_cases hq : q ∈ l.map Prod.fst
      · obtain ⟨x, hx, rfl⟩ := List.mem_map.1 hq
        obtain ⟨i, hi⟩ := Option.isSome_iff_exists.1 (hs x hx)
        obtain ⟨m1, b1, c1⟩ := a1.props x hx i hi
        obtain ⟨m2, b2, c2⟩ := a2.props x (hp.mem_iff.1 hx) i hi
        rw [b1] at b2
        cases b2
        rw [c1, c2]
      · rw [a1.other q hq, a2.other q (fun h => hq ((hp.map _).mem_iff.2 h))]
  · exact (key hp a1 y hy j hj hd).elim
  · exact (key hp.symm a2 x hx i hi hc).elim
  · rw [e1, e2]

end Declare

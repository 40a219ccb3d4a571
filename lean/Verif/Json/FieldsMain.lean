import Verif.Json.Fields
/-!
# The order of fields does not matter to the conversion from JSON: instances
-/
namespace Json
open Go Rbxfile Spec

variable {O : Overflow} {it it' : Iter}

/-- The reference is of the property `n` of `p`. -/
def isOf (p : Nat) (n : Bytes) (r : PropRef Nat) : Bool := decide (r.inst = some p ∧ r.property = n)

/-- States that differ in the order of properties. -/
structure StateAlike (s t : JState) : Prop where
  len : s.heap.length = t.heap.length
  heap : ∀ p, Option.Rel InstanceAlike (s.heap.get? p) (t.heap.get? p)
  refs : s.refs = t.refs
  prs : ∀ p n, s.propRefs.filter (isOf p n) = t.propRefs.filter (isOf p n)
  ex : ∀ r p, s.refs.get? r = some (some p) → (s.heap.get? p).isSome

theorem _root_.Spec.InstanceAlike.refl (a : Inst Nat) : InstanceAlike a a := ⟨rfl, rfl, rfl, rfl, fun _ => rfl⟩

theorem set_size {κ ν : Type} [DecidableEq κ] (m : Map κ ν) (k : κ) (v : ν) :
    (m.set k v).length = if (m.get? k).isSome then m.length else m.length + 1 := by
  cases h : m.get? k with
  | some x => rw [set_length (by rw [h]; rfl)]; rfl
  | none => rw [set_length_new h]; rfl

theorem rel_isSome {α β : Type} {R : α → β → Prop} {a : Option α} {b : Option β} (h : Option.Rel R a b) : a.isSome = b.isSome := by
  cases h <;> rfl

theorem isSome_set {κ ν : Type} [DecidableEq κ] {m : Map κ ν} {p : κ} (h : (m.get? p).isSome) (k : κ) (v : ν) :
    ((m.set k v).get? p).isSome := by
  rw [Map.get?_set]
  split
  · rfl
  · exact h

theorem StateAlike.set {s t : JState} (h : StateAlike s t) (p : Nat) {a b : Inst Nat} (hab : InstanceAlike a b) :
    StateAlike { s with heap := s.heap.set p a } { t with heap := t.heap.set p b } := by
  refine ⟨?_, fun q => ?_, h.refs, h.prs, fun r q hr => isSome_set (h.ex r q hr) _ _⟩
  · simp only [set_size, h.len, rel_isSome (h.heap p)]
  · simp only [Map.get?_set]
    split
    · exact .some hab
    · exact h.heap q

theorem StateAlike.update {s t : JState} (h : StateAlike s t) (p : Nat) {f : Inst Nat → Inst Nat}
    (hf : ∀ a b, InstanceAlike a b → InstanceAlike (f a) (f b)) : StateAlike (s.update p f) (t.update p f) := by
  unfold JState.update
  have := h.heap p
  cases hs : s.heap.get? p <;> cases ht : t.heap.get? p <;> rw [hs, ht] at this <;> cases this
  · exact h
  · exact h.set p (hf _ _ ‹_›)

theorem isSome_update {s : JState} {q : Nat} (h : (s.heap.get? q).isSome) (p : Nat) (f : Inst Nat → Inst Nat) :
    ((s.update p f).heap.get? q).isSome := by
  unfold JState.update
  split
  · exact h
  · exact isSome_set h _ _

theorem referenceIn_alike {j j' : JVal} (h : FieldsAlike j j') : referenceIn j = referenceIn j' := by
  unfold referenceIn
  rcases index_alike h (str "reference") with ⟨e1, e2⟩ | ⟨x, y, e1, e2, hx⟩
  · rw [e1, e2]
  · rw [e1, e2]; cases hx <;> rfl

theorem describes_alike {j j' : JVal} (h : FieldsAlike j j') : describes j = describes j' := by
  unfold describes
  rcases index_alike h (str "class_name") with ⟨e1, e2⟩ | ⟨x, y, e1, e2, hx⟩
  · rw [e1, e2]
  · rw [e1, e2]; cases hx <;> rfl

theorem enter_alike {j j' : JVal} (h : FieldsAlike j j') {s t : JState} (hs : StateAlike s t) :
    (enter j s).1 = (enter j' t).1 ∧ StateAlike (enter j s).2 (enter j' t).2 ∧
    ((enter j s).2.heap.get? (enter j s).1).isSome := by
  rw [enter_eq, enter_eq, ← referenceIn_alike h, ← hs.refs, ← hs.len]
  split
  · have g := hs.set s.heap.length (.refl ({ className := [] } : Inst Nat))
    exact ⟨rfl, ⟨g.len, g.heap, rfl, g.prs, g.ex⟩, by simp⟩
  · have fin : ((s.heap.length, { s with
        heap := s.heap.set s.heap.length { className := [], reference := referenceIn j }
        refs := s.refs.set (referenceIn j) (some s.heap.length) }) : Nat × JState).1 = s.heap.length ∧
        StateAlike { s with
          heap := s.heap.set s.heap.length { className := [], reference := referenceIn j }
          refs := s.refs.set (referenceIn j) (some s.heap.length) }
        { t with
          heap := t.heap.set s.heap.length { className := [], reference := referenceIn j }
          refs := s.refs.set (referenceIn j) (some s.heap.length) } ∧
        (((s.heap.set s.heap.length ({ className := [], reference := referenceIn j } : Inst Nat)).get? s.heap.length)).isSome := by
      have g := hs.set s.heap.length (.refl ({ className := [], reference := referenceIn j } : Inst Nat))
      refine ⟨rfl, ⟨g.len, g.heap, rfl, g.prs, fun r p hr => ?_⟩, by simp⟩
      simp only [Map.get?_set] at hr ⊢
      split at hr
      · cases hr; simp
      · split
        · rfl
        · exact hs.ex r p hr
    rcases hr : s.refs.get? (referenceIn j) with _ | _ | p
    · exact ⟨rfl, fin.2⟩
    · exact ⟨rfl, fin.2⟩
    · exact ⟨rfl, hs, hs.ex _ _ hr⟩

/-! ## Properties -/

theorem filter_perm_eq {α : Type} {P : α → Bool} {l l' : List α} (h : l.Perm l') (hn : l.Nodup)
    (hu : ∀ a ∈ l, ∀ b ∈ l, P a = true → P b = true → a = b) : l.filter P = l'.filter P := by
  have hp := h.filter P
  rcases e : l.filter P with _ | ⟨a, _ | ⟨b, r⟩⟩
  · rw [e] at hp; exact hp.nil_eq
  · rw [e] at hp; exact (List.singleton_perm.1 hp).symm ▸ rfl
  · exfalso
    have hn' := hn.filter P
    rw [e] at hn'
    have ha : a ∈ l.filter P := by rw [e]; simp
    have hb : b ∈ l.filter P := by rw [e]; simp
    have := hu a (List.mem_filter.1 ha).1 b (List.mem_filter.1 hb).1 (List.mem_filter.1 ha).2 (List.mem_filter.1 hb).2
    subst this
    simp at hn'

theorem nodup_of_names {α : Type} {l : List (Bytes × α)} (h : (l.map Prod.fst).Nodup) : l.Nodup := by
  unfold List.Nodup at h ⊢
  exact (List.pairwise_map.1 h).imp fun h e => h (congrArg Prod.fst e)

theorem name_inj {α : Type} {l : List (Bytes × α)} (h : (l.map Prod.fst).Nodup) {a b : Bytes × α} (ha : a ∈ l) (hb : b ∈ l)
    (e : a.1 = b.1) : a = b := by
  obtain ⟨n, x⟩ := a
  obtain ⟨m, y⟩ := b
  have e : n = m := e
  subst e
  have h1 := Map.get?_of_mem h ha
  rw [Map.get?_of_mem h hb] at h1
  cases h1
  rfl

theorem refOuts_alike {p : Nat} {os os' : List (Bytes × PropOut)} (h : os.Perm os') (hn : (os.map Prod.fst).Nodup) (q : Nat) (n : Bytes) :
    (refOuts p os).filter (isOf q n) = (refOuts p os').filter (isOf q n) := by
  have e : ∀ l : List (Bytes × PropOut), (refOuts p l).filter (isOf q n) = refOuts p (l.filter fun o => decide (p = q ∧ o.1 = n)) := by
    intro l
    induction l with
    | nil => rfl
    | cons o l ih =>
      obtain ⟨m, o⟩ := o
      unfold refOuts at ih ⊢
      by_cases hc : p = q ∧ m = n
      · rw [List.filter_cons_of_pos (by simpa using hc)]
        cases o with
        | ref r =>
          simp only [List.filterMap_cons]
          rw [List.filter_cons_of_pos (by simpa [isOf] using hc), ih]
        | skip => simp only [List.filterMap_cons]; exact ih
        | value v => simp only [List.filterMap_cons]; exact ih
      · rw [List.filter_cons_of_neg (by simpa using hc)]
        cases o with
        | ref r =>
          simp only [List.filterMap_cons]
          rw [List.filter_cons_of_neg (by simpa [isOf] using hc), ih]
        | skip => simp only [List.filterMap_cons]; exact ih
        | value v => simp only [List.filterMap_cons]; exact ih
  rw [e, e]
  congr 1
  refine filter_perm_eq h (nodup_of_names hn) fun a ha b hb h1 h2 => ?_
  simp only [decide_eq_true_eq] at h1 h2
  exact name_inj hn ha hb (h1.2.trans h2.2.symm)

theorem applyOuts_alike {os os' : List (Bytes × PropOut)} (h : os.Perm os') (hn : (os.map Prod.fst).Nodup)
    {m m' : Map Bytes (Value Nat)} (hm : ∀ n, m.get? n = m'.get? n) (n : Bytes) :
    (applyOuts os m).get? n = (applyOuts os' m').get? n := by
  have hn' := ((h.map Prod.fst).nodup_iff).1 hn
  obtain ⟨h1, h2⟩ := applyOuts_get n os m hn
  obtain ⟨h3, h4⟩ := applyOuts_get n os' m' hn'
  by_cases hv : ∃ v, (n, PropOut.value v) ∈ os
  · obtain ⟨v, hv⟩ := hv
    rw [h1 v hv, h3 v (h.mem_iff.1 hv)]
  · rw [h2 fun v hm => hv ⟨v, hm⟩, h4 fun v hm => hv ⟨v, h.mem_iff.2 hm⟩, hm]

theorem props_alike {p : Nat} {ps ps' : List (Bytes × JVal)} (h : FieldsAlike (.obj ps) (.obj ps')) {s t s1 : JState}
    (hs : StateAlike s t) (hp : (s.heap.get? p).isSome) (h1 : propsFrom O it p (it.run [p] ps) s = .ok s1) :
    ∃ t1, propsFrom O it' p (it'.run [p] ps') t = .ok t1 ∧ StateAlike s1 t1 := by
  obtain ⟨os, ho⟩ := propsFrom_outs _ h1
  have hnd : (ps.map Prod.fst).Nodup := by cases h; assumption
  have hnd' : (ps'.map Prod.fst).Nodup := by cases h; assumption
  have key : ∀ n j j', (n, j) ∈ ps → (n, j') ∈ ps' → FieldsAlike j j' := by
    intro n j j' h1 h2
    have e1 := Map.get?_of_mem hnd h1
    have e2 := Map.get?_of_mem hnd' h2
    rcases h.get n with ⟨e3, e4⟩ | ⟨x, y, e3, e4, hx⟩
    · rw [e3] at e1; cases e1
    · rw [e3] at e1; rw [e4] at e2; cases e1; cases e2; exact hx
  have left : ∀ n j, (n, j) ∈ ps → ∃ j', (n, j') ∈ ps' := by
    intro n j h1
    have e1 := Map.get?_of_mem hnd h1
    rcases h.get n with ⟨e3, e4⟩ | ⟨x, y, e3, e4, hx⟩
    · rw [e3] at e1; cases e1
    · exact ⟨y, Map.mem_of_get? e4⟩
  have right : ∀ n j, (n, j) ∈ ps' → ∃ j', (n, j') ∈ ps := by
    intro n j h1
    have e1 := Map.get?_of_mem hnd' h1
    rcases h.get n with ⟨e3, e4⟩ | ⟨x, y, e3, e4, hx⟩
    · rw [e4] at e1; cases e1
    · exact ⟨x, Map.mem_of_get? e3⟩
  have hmem : ∀ x, x ∈ it.run [p] ps ↔ x ∈ ps := fun x => (it.perm [p] ps).mem_iff
  have hmem' : ∀ x, x ∈ it'.run [p] ps' ↔ x ∈ ps' := fun x => (it'.perm [p] ps').mem_iff
  obtain ⟨os', ho', hf', hx', hy'⟩ := outs_exist (O := O) (it := it') (P := fun x o => propFrom O it' x.2 = .ok o) (it'.run [p] ps') (by
    rintro ⟨n, j'⟩ hj'
    obtain ⟨j, hj⟩ := right n j' ((hmem' _).1 hj')
    obtain ⟨o, -, -, ho⟩ := Each.mem_left ho (n, j) ((hmem _).2 hj)
    have := propFrom_alike O it it' (key n j j' hj ((hmem' _).1 hj'))
    exact ⟨o.2, this ▸ ho, this ▸ ho⟩)
  have hf : os.map Prod.fst = (it.run [p] ps).map Prod.fst := (Each.fst_map (fun a b hab => hab.1) ho).symm
  have n1 : (os.map Prod.fst).Nodup := by rw [hf, ((it.perm [p] ps).map Prod.fst).nodup_iff]; exact hnd
  have n2 : (os'.map Prod.fst).Nodup := by rw [hf', ((it'.perm [p] ps').map Prod.fst).nodup_iff]; exact hnd'
  have hperm : os.Perm os' := by
    refine (List.perm_ext_iff_of_nodup (nodup_of_names n1) (nodup_of_names n2)).2 ?_
    rintro ⟨n, o⟩
    constructor
    · intro hm
      obtain ⟨⟨n', j⟩, hj, e, h3⟩ := Each.mem_right ho _ hm
      have e : n' = n := e
      subst e
      obtain ⟨j', hj'⟩ := left _ _ ((hmem _).1 hj)
      obtain ⟨o', h4, h5⟩ := hx' _ ((hmem' _).2 hj')
      have := propFrom_alike O it it' (key _ j j' ((hmem _).1 hj) hj')
      simp only at h3 h5
      rw [this, h5] at h3
      cases h3
      exact h4
    · intro hm
      obtain ⟨⟨n', j'⟩, hj', e, h3⟩ := hy' _ hm
      have e : n' = n := e
      subst e
      obtain ⟨j, hj⟩ := right _ _ ((hmem' _).1 hj')
      obtain ⟨o', h4, e, h5⟩ := Each.mem_left ho (n', j) ((hmem _).2 hj)
      have := propFrom_alike O it it' (key _ j j' hj ((hmem' _).1 hj'))
      simp only at h3 h5 e
      rw [this, h3] at h5
      obtain ⟨m, o''⟩ := o'
      simp only at h5 e
      cases h5
      subst e
      exact h4
  obtain ⟨a, ha⟩ := Option.isSome_iff_exists.1 hp
  have hab := hs.heap p
  rw [ha] at hab
  obtain ⟨b, hb, hab⟩ : ∃ b, t.heap.get? p = some b ∧ InstanceAlike a b := by
    cases ht : t.heap.get? p <;> rw [ht] at hab <;> cases hab
    exact ⟨_, rfl, ‹_›⟩
  rw [propsFrom_eq ho ha] at h1
  cases h1
  refine ⟨_, propsFrom_eq ho' hb, ?_⟩
  have g := hs.set p (a := { a with properties := applyOuts os a.properties }) (b := { b with properties := applyOuts os' b.properties })
    ⟨hab.1, hab.2, hab.3, hab.4, applyOuts_alike hperm n1 hab.5⟩
  refine ⟨g.len, g.heap, g.refs, fun q n => ?_, g.ex⟩
  simp only [List.filter_append]
  rw [hs.prs, refOuts_alike hperm n1]

theorem fill_alike {j j' : JVal} (h : FieldsAlike j j') {p : Nat} {cls : Bytes} {s t s1 : JState} (hs : StateAlike s t)
    (hp : (s.heap.get? p).isSome) (h1 : fill O it j p cls s = .ok s1) :
    ∃ t1, fill O it' j' p cls t = .ok t1 ∧ StateAlike s1 t1 := by
  have hs1 : StateAlike (s.update p fun i => { i with className := cls }) (t.update p fun i => { i with className := cls }) :=
    hs.update p fun a b h => ⟨rfl, h.2, h.3, h.4, h.5⟩
  have hp1 := isSome_update hp p fun i => { i with className := cls }
  unfold fill at h1 ⊢
  dsimp only at h1 ⊢
  generalize s.update p _ = s at *
  generalize t.update p _ = t at *
  have fin : ∀ s t : JState, StateAlike s t → (s.heap.get? p).isSome →
      (match index j (str "properties") with
        | some (.obj ps) => propsFrom O it p (it.run [p] ps) s
        | _ => Res.ok s) = .ok s1 →
      ∃ t1, (match index j' (str "properties") with
        | some (.obj ps) => propsFrom O it' p (it'.run [p] ps) t
        | _ => Res.ok t) = .ok t1 ∧ StateAlike s1 t1 := by
    intro s t hs hp h1
    rcases index_alike h (str "properties") with ⟨e1, e2⟩ | ⟨x, y, e1, e2, hx⟩
    · rw [e1] at h1; rw [e2]; cases h1; exact ⟨_, rfl, hs⟩
    · rw [e1] at h1; rw [e2]
      cases hx with
      | obj a b c d => exact props_alike (.obj a b c d) hs hp h1
      | _ => cases h1; exact ⟨_, rfl, hs⟩
  rcases index_alike h (str "is_service") with ⟨e1, e2⟩ | ⟨x, y, e1, e2, hx⟩
  · rw [e1] at h1; rw [e2]; exact fin _ _ hs1 hp1 h1
  · rw [e1] at h1; rw [e2]
    cases hx with
    | bool b => exact fin _ _ (hs1.update p fun a b h => ⟨h.1, h.2, rfl, h.4, h.5⟩) (isSome_update hp1 p _) h1
    | _ => exact fin _ _ hs1 hp1 h1

/-! ## Instances -/

theorem childrenField_get : ∀ (m : List (Bytes × JVal)) (s : JState), childrenField O it m s =
    match Map.get? m (str "children") with
    | some (.arr l) => childrenFrom O it l s
    | _ => .ok s
  | [], s => by rw [childrenField]; rfl
  | (k, v) :: m, s => by
    rw [childrenField.eq_def]
    by_cases hk : k = str "children"
    · simp only [hk, if_true, Map.get?]
      cases v <;> rfl
    · simp only [hk, if_false, Map.get?]
      exact childrenField_get m s

theorem children_alike {l l' : List JVal} (h : List.Forall₂ FieldsAlike l l') : ∀ {s t s1 : JState}, StateAlike s t →
    childrenFrom O it l s = .ok s1 → ∃ t1, childrenFrom O it' l' t = .ok t1 ∧ StateAlike s1 t1 := by
  induction h with
  | nil => intro s t s1 hs h1; cases h1; exact ⟨_, rfl, hs⟩
  | @cons j j' l l' hj _ ih =>
    intro s t s1 hs h1
    have hd : describes j = false := by
      have := (childrenFrom_iff O it _ _).1 ⟨_, h1⟩ j (by simp)
      rw [← describes_iff] at this
      simpa using this
    rw [childrenFrom, instFrom_other hd] at h1
    rw [childrenFrom, instFrom_other (by rw [← describes_alike hj]; exact hd)]
    exact ih (enter_alike hj hs).2.1 h1

theorem inst_alike {j j' : JVal} (h : FieldsAlike j j') {s t s1 : JState} {o : Option Nat} (hs : StateAlike s t)
    (h1 : instFrom O it j s = .ok (o, s1)) : ∃ t1, instFrom O it' j' t = .ok (o, t1) ∧ StateAlike s1 t1 := by
  obtain ⟨g1, g2, g3⟩ := enter_alike h hs
  cases hd : describes j with
  | false =>
    rw [instFrom_other hd] at h1
    rw [instFrom_other (by rw [← describes_alike h]; exact hd)]
    cases h1
    exact ⟨_, rfl, g2⟩
  | true =>
    obtain ⟨m, cls, rfl, hc⟩ := (describes_iff j).1 hd
    obtain ⟨m', cls', rfl, hc'⟩ := (describes_iff j').1 (by rw [← describes_alike h]; exact hd)
    have : cls = cls' := by
      rcases h.get (str "class_name") with ⟨e1, e2⟩ | ⟨x, y, e1, e2, hx⟩
      · rw [e1] at hc; cases hc
      · rw [e1] at hc; rw [e2] at hc'
        cases hc; cases hc'; cases hx; rfl
    subst this
    rw [instFrom, hc] at h1
    rw [instFrom, hc']
    simp only at h1 ⊢
    obtain ⟨s2, h2, h1⟩ := Res.bind_eq_ok.1 h1
    obtain ⟨s3, h3, h1⟩ := Res.bind_eq_ok.1 h1
    simp only [Res.pure_eq, Res.ok.injEq, Prod.mk.injEq] at h1
    obtain ⟨rfl, rfl⟩ := h1
    obtain ⟨t2, k2, k3⟩ := fill_alike (it' := it') h g2 g3 h2
    have k4 : StateAlike (s2.update (enter (.obj m) s).1 fun i => { i with children := [] })
        (t2.update (enter (.obj m) s).1 fun i => { i with children := [] }) :=
      k3.update _ fun a b h => ⟨h.1, h.2, h.3, rfl, h.5⟩
    obtain ⟨t3, k5, k6⟩ : ∃ t3, childrenField O it' m' (t2.update (enter (.obj m) s).1 fun i => { i with children := [] }) = .ok t3 ∧
        StateAlike s3 t3 := by
      rw [childrenField_get] at h3 ⊢
      rcases h.get (str "children") with ⟨e1, e2⟩ | ⟨x, y, e1, e2, hx⟩
      · rw [e1] at h3; rw [e2]; cases h3; exact ⟨_, rfl, k4⟩
      · rw [e1] at h3; rw [e2]
        cases hx with
        | arr a b => exact children_alike (FieldsAlike.items (.arr a b)) k4 h3
        | _ => cases h3; exact ⟨_, rfl, k4⟩
    refine ⟨t3, ?_, k6⟩
    rw [← g1, k2, Res.ok_bind, k5]
    rfl

theorem list_alike {l l' : List JVal} (h : List.Forall₂ FieldsAlike l l') : ∀ {s t s1 : JState} {ps : List Nat}, StateAlike s t →
    listFrom O it l s = .ok (ps, s1) → ∃ t1, listFrom O it' l' t = .ok (ps, t1) ∧ StateAlike s1 t1 := by
  induction h with
  | nil => intro s t s1 ps hs h1; cases h1; exact ⟨_, rfl, hs⟩
  | @cons j j' l l' hj _ ih =>
    intro s t s1 ps hs h1
    rw [listFrom] at h1 ⊢
    obtain ⟨⟨o, s2⟩, h2, h1⟩ := Res.bind_eq_ok.1 h1
    obtain ⟨⟨qs, s3⟩, h3, h1⟩ := Res.bind_eq_ok.1 h1
    cases h1
    obtain ⟨t2, k2, k3⟩ := inst_alike (it' := it') hj hs h2
    obtain ⟨t3, k4, k5⟩ := ih k3 h3
    exact ⟨t3, by rw [k2, Res.ok_bind]; dsimp only; rw [k4]; rfl, k5⟩

/-! ## References -/

/-- What becomes of a property. -/
def refsOver (refs : References Nat) (v : Option (Value Nat)) (prs : List (PropRef Nat)) : Option (Value Nat) :=
  prs.foldl (fun _ r => some (.reference (refs.at r.reference))) v

theorem setRefs_get (refs : References Nat) : ∀ (prs : List (PropRef Nat)) (h : Heap Nat) (p : Nat),
    (setRefs refs prs h).length = h.length ∧
    (h.get? p = none → (setRefs refs prs h).get? p = none) ∧
    ∀ a, h.get? p = some a → ∃ b, (setRefs refs prs h).get? p = some b ∧ b.className = a.className ∧ b.reference = a.reference ∧
      b.isService = a.isService ∧ b.children = a.children ∧
      ∀ n, b.properties.get? n = refsOver refs (a.properties.get? n) (prs.filter (isOf p n))
  | [], h, p => ⟨rfl, id, fun a ha => ⟨a, ha, rfl, rfl, rfl, rfl, fun _ => rfl⟩⟩
  | pr :: prs, h, p => by
    refine ⟨setRefs_length _ _ _, ?_⟩
    rw [setRefs]
    obtain ⟨-, ih1, ih2⟩ := setRefs_get refs prs (refs.resolve pr h).2 p
    have skip : (refs.resolve pr h).2.get? p = h.get? p → (pr.inst ≠ some p ∨ h.get? p = none) →
        (h.get? p = none → (setRefs refs prs (refs.resolve pr h).2).get? p = none) ∧
        ∀ a, h.get? p = some a → ∃ b, (setRefs refs prs (refs.resolve pr h).2).get? p = some b ∧ b.className = a.className ∧
          b.reference = a.reference ∧ b.isService = a.isService ∧ b.children = a.children ∧
          ∀ n, b.properties.get? n = refsOver refs (a.properties.get? n) ((pr :: prs).filter (isOf p n)) := by
      intro e hne
      rw [e] at ih1 ih2
      refine ⟨ih1, fun a ha => ?_⟩
      obtain ⟨b, h1, h2, h3, h4, h5, h6⟩ := ih2 a ha
      refine ⟨b, h1, h2, h3, h4, h5, fun n => ?_⟩
      rw [h6, List.filter_cons_of_neg]
      rcases hne with hne | hne
      · simp [isOf, hne]
      · rw [hne] at ha; cases ha
    rcases pr with ⟨_ | c, n', r⟩
    · exact skip rfl (.inl nofun)
    · by_cases hc : c = p
      · subst hc
        cases hi : h.get? c with
        | none =>
          have e : (refs.resolve ⟨some c, n', r⟩ h).2 = h := by simp [References.resolve, hi]
          rw [hi] at skip
          exact skip (by rw [e, hi]) (.inr rfl)
        | some i =>
          have e : (refs.resolve ⟨some c, n', r⟩ h).2 = h.set c { i with properties := i.properties.set n' (.reference (refs.at r)) } := by
            simp [References.resolve, hi]
          refine ⟨nofun, ?_⟩
          rintro a ⟨⟩
          rw [e] at ih2 ⊢
          obtain ⟨b, h1, h2, h3, h4, h5, h6⟩ := ih2 _ (Map.get?_set_self _ _ _)
          refine ⟨b, h1, h2, h3, h4, h5, fun n => ?_⟩
          rw [h6]
          by_cases hn : n' = n
          · subst hn
            rw [List.filter_cons_of_pos (by simp [isOf]), Map.get?_set_self]
            rfl
          · rw [List.filter_cons_of_neg (by simp [isOf, hn]), Map.get?_set_ne _ _ (fun e => hn e.symm)]
      · refine skip ?_ (.inl fun e => hc (by cases e; rfl))
        unfold References.resolve
        simp only
        split
        · rfl
        · exact Map.get?_set_ne _ _ (fun e => hc e.symm)

theorem setRefs_alike {s t : JState} (h : StateAlike s t) :
    InstancesAlike (setRefs s.refs s.propRefs s.heap) (setRefs t.refs t.propRefs t.heap) := by
  refine ⟨by rw [setRefs_length, setRefs_length, h.len], fun p => ?_⟩
  obtain ⟨-, a1, a2⟩ := setRefs_get s.refs s.propRefs s.heap p
  obtain ⟨-, b1, b2⟩ := setRefs_get t.refs t.propRefs t.heap p
  have := h.heap p
  cases hs : s.heap.get? p <;> cases ht : t.heap.get? p <;> rw [hs, ht] at this <;> cases this
  · rw [a1 hs, b1 ht]; exact .none
  · rename_i a b hab
    obtain ⟨x, x1, x2, x3, x4, x5, x6⟩ := a2 _ hs
    obtain ⟨y, y1, y2, y3, y4, y5, y6⟩ := b2 _ ht
    rw [x1, y1]
    refine .some ⟨by rw [x2, y2, hab.1], by rw [x3, y3, hab.2], by rw [x4, y4, hab.3], by rw [x5, y5, hab.4], fun n => ?_⟩
    rw [x6, y6, hab.5, h.refs, h.prs]

theorem root_alike {j j' : JVal} (h : FieldsAlike j j') {o : Option (Heap Nat × Root Nat)} (h1 : rootFrom O it j = .ok o) :
    ∃ o', rootFrom O it' j' = .ok o' ∧ Option.Rel (fun x y => InstancesAlike x.1 y.1 ∧ x.2 = y.2) o o' := by
  unfold rootFrom at h1 ⊢
  rcases index_alike h (str "rbxfile_version") with ⟨e1, e2⟩ | ⟨x, y, e1, e2, hx⟩
  · rw [e1] at h1; rw [e2]; cases h1; exact ⟨_, rfl, .none⟩
  · rw [e1] at h1; rw [e2]
    cases hx with
    | num f =>
      simp only at h1 ⊢
      split at h1
      · rename_i hv
        rw [if_pos hv]
        rcases index_alike h (str "instances") with ⟨e3, e4⟩ | ⟨v, w, e3, e4, hv⟩
        · rw [e3] at h1; rw [e4]; cases h1; exact ⟨_, rfl, .none⟩
        · rw [e3] at h1; rw [e4]
          cases hv with
          | arr a b =>
            simp only at h1 ⊢
            obtain ⟨⟨ps, s⟩, h2, h1⟩ := Res.bind_eq_ok.1 h1
            cases h1
            obtain ⟨t, k1, k2⟩ := list_alike (it' := it') (FieldsAlike.items (.arr a b)) (s := {}) (t := {})
              ⟨rfl, fun _ => .none, rfl, fun _ _ => rfl, nofun⟩ h2
            exact ⟨some (setRefs t.refs t.propRefs t.heap, { instances := ps }), by rw [k1, Res.ok_bind]; rfl, .some ⟨setRefs_alike k2, rfl⟩⟩
          | _ => cases h1; exact ⟨_, rfl, .none⟩
      · rename_i hv
        rw [if_neg hv]
        cases h1
        exact ⟨_, rfl, .none⟩
    | _ => cases h1; exact ⟨_, rfl, .none⟩

end Json

import Verif.Json.Finite
import Verif.Json.PanicsExact
import Verif.Spec.JsonRead
import Verif.Rbxl.SameTree
import Mathlib.Data.List.Forall2
/-!
# What is read from JSON
-/
namespace Json
open Go Rbxfile Spec Rbxlx

variable {O : Overflow} {it : Iter}

/-! ## Entering instances -/

/-- What never changes: instances stay, as do registered references; no reference is recorded for a property. -/
structure Keep (s s' : JState) : Prop where
  heap : ∀ p a, s.heap.get? p = some a → s'.heap.get? p = some a
  refs : ∀ r p, s.refs.get? r = some (some p) → s'.refs.get? r = some (some p)
  propRefs : s'.propRefs = s.propRefs
  length : s.heap.length ≤ s'.heap.length

theorem Keep.refl (s : JState) : Keep s s := ⟨fun _ _ h => h, fun _ _ h => h, rfl, Nat.le_refl _⟩
theorem Keep.trans {a b c : JState} (h : Keep a b) (h' : Keep b c) : Keep a c :=
  ⟨fun p x hx => h'.heap p x (h.heap p x hx), fun r p hr => h'.refs r p (h.refs r p hr), h'.propRefs.trans h.propRefs,
    Nat.le_trans h.length h'.length⟩

/-- The instances that exist and how they are registered; those that are not `done` are blank. -/
structure RInv (done : List Nat) (s : JState) : Prop where
  keys : ∀ q, (s.heap.get? q).isSome ↔ q < s.heap.length
  named : ∀ r o, s.refs.get? r = some o → isEmptyReference r = false ∧ ∃ p a, o = some p ∧ s.heap.get? p = some a ∧ a.reference = r
  known : ∀ p a, s.heap.get? p = some a → a.reference ≠ [] → s.refs.get? a.reference = some (some p)
  blank : ∀ p a, s.heap.get? p = some a → p ∉ done → a = { className := [], reference := a.reference }
  children : ∀ p a, s.heap.get? p = some a → a.children = []
  props : ∀ p a, s.heap.get? p = some a → a.properties.Ok
  typed : ∀ p a, s.heap.get? p = some a → ∀ n t v, a.properties.get? n = some (.optional t (some v)) → v.type = t
  noRefs : ∀ p a, s.heap.get? p = some a → ∀ n q, a.properties.get? n ≠ some (.reference q)
  prs : ∀ pr ∈ s.propRefs, ∃ p ∈ done, pr.inst = some p

theorem RInv.start : RInv [] {} := by
  constructor <;> simp

theorem set_length {κ ν : Type} [DecidableEq κ] {m : Map κ ν} {k : κ} {v : ν} (h : (m.get? k).isSome) :
    (m.set k v).length = m.length := by
  have := congrArg List.length (Map.map_fst_set m k v)
  rw [List.length_map] at this
  rw [this, if_pos (Map.get?_isSome.1 h)]
  simp

theorem enter_eq (j : JVal) (s : JState) : enter j s =
    if referenceIn j = [] then (s.heap.length, { s with heap := s.heap.set s.heap.length { className := [] } })
    else match s.refs.get? (referenceIn j) with
      | some (some p) => (p, s)
      | _ => (s.heap.length, { s with
        heap := s.heap.set s.heap.length { className := [], reference := referenceIn j }
        refs := s.refs.set (referenceIn j) (some s.heap.length) }) := by
  unfold enter referenceIn
  cases hi : index j (str "reference") with
  | none => rfl
  | some v =>
    cases v with
    | str r =>
      simp only
      cases he : isEmptyReference r with
      | true => simp
      | false =>
        have : r ≠ [] := by rintro rfl; exact absurd he (by decide)
        simp only [this, Bool.false_eq_true, if_false]
        rcases s.refs.get? r with _ | _ | p <;> rfl
    | _ => rfl

theorem referenceIn_ne {j : JVal} (h : referenceIn j ≠ []) : isEmptyReference (referenceIn j) = false := by
  unfold referenceIn at h ⊢
  split
  · split
    · rename_i he; simp_all
    · rename_i he; simpa using he
  · simp_all

theorem enter_step {done : List Nat} {s : JState} (hi : RInv done s) (j : JVal) :
    RInv done (enter j s).2 ∧ Keep s (enter j s).2 ∧
    (∃ a, (enter j s).2.heap.get? (enter j s).1 = some a ∧ a.reference = referenceIn j) ∧
    (referenceIn j = [] → (enter j s).1 = s.heap.length) := by
  have hnone : s.heap.get? s.heap.length = none := by
    cases h : s.heap.get? s.heap.length with
    | none => rfl
    | some a => exact absurd ((hi.keys s.heap.length).1 (by rw [h]; rfl)) (by omega)
  have hlen : ∀ a : Inst Nat, (s.heap.set s.heap.length a).length = s.heap.length + 1 := fun a => set_length_new hnone
  have hold : ∀ (b : Inst Nat) (p : Nat) (a : Inst Nat), s.heap.get? p = some a → (s.heap.set s.heap.length b).get? p = some a := by
    intro b p a ha
    rw [Map.get?_set_ne _ _ (by rintro rfl; rw [hnone] at ha; cases ha)]
    exact ha
  have hnew : ∀ (b : Inst Nat) (p : Nat) (a : Inst Nat), (s.heap.set s.heap.length b).get? p = some a →
      s.heap.get? p = some a ∨ (p = s.heap.length ∧ a = b) := by
    intro b p a ha
    rw [Map.get?_set] at ha
    split at ha
    · rename_i h; cases ha; exact .inr ⟨h, rfl⟩
    · exact .inl ha
  rw [enter_eq]
  split
  · rename_i hr
    refine ⟨?_, ⟨hold _, fun _ _ h => h, rfl, by simp only [hlen]; omega⟩, ⟨_, Map.get?_set_self _ _ _, hr.symm⟩, fun _ => rfl⟩
    constructor
    · simp only [hlen]; exact keys_lt hi.keys _
    · intro r o h
      obtain ⟨h1, p, a, rfl, h2, h3⟩ := hi.named r o h
      exact ⟨h1, p, a, rfl, hold _ _ _ h2, h3⟩
    · intro p a ha hne
      rcases hnew _ _ _ ha with ha | ⟨rfl, rfl⟩
      · exact hi.known p a ha hne
      · exact absurd rfl hne
    · intro p a ha hp
      rcases hnew _ _ _ ha with ha | ⟨rfl, rfl⟩
      · exact hi.blank p a ha hp
      · rfl
    · intro p a ha
      rcases hnew _ _ _ ha with ha | ⟨rfl, rfl⟩
      · exact hi.children p a ha
      · rfl
    · intro p a ha
      rcases hnew _ _ _ ha with ha | ⟨rfl, rfl⟩
      · exact hi.props p a ha
      · exact Map.ok_nil
    · intro p a ha
      rcases hnew _ _ _ ha with ha | ⟨rfl, rfl⟩
      · exact hi.typed p a ha
      · intro n t v h; cases h
    · intro p a ha
      rcases hnew _ _ _ ha with ha | ⟨rfl, rfl⟩
      · exact hi.noRefs p a ha
      · intro n q h; cases h
    · exact hi.prs
  · rename_i hr
    have hre := referenceIn_ne hr
    split
    · rename_i p hp
      obtain ⟨-, p', a, e, ha, har⟩ := hi.named _ _ hp
      cases e
      exact ⟨hi, .refl s, ⟨a, ha, har⟩, fun h => absurd h hr⟩
    · rename_i hno
      have hno' : s.refs.get? (referenceIn j) = none := by
        cases h : s.refs.get? (referenceIn j) with
        | none => rfl
        | some o =>
          obtain ⟨-, p, a, rfl, -⟩ := hi.named _ _ h
          exact absurd h (hno p)
      refine ⟨?_, ⟨hold _, fun r p h => ?_, rfl, by simp only [hlen]; omega⟩, ⟨_, Map.get?_set_self _ _ _, rfl⟩, fun h => absurd h hr⟩
      · constructor
        · simp only [hlen]; exact keys_lt hi.keys _
        · intro r o h
          simp only [Map.get?_set] at h
          split at h
          · rename_i e
            cases h
            subst e
            exact ⟨hre, _, _, rfl, Map.get?_set_self _ _ _, rfl⟩
          · obtain ⟨h1, p, a, rfl, h2, h3⟩ := hi.named r o h
            exact ⟨h1, p, a, rfl, hold _ _ _ h2, h3⟩
        · intro p a ha hne
          simp only [Map.get?_set]
          rcases hnew _ _ _ ha with ha | ⟨rfl, rfl⟩
          · have := hi.known p a ha hne
            rw [if_neg]
            · exact this
            · intro e; rw [e, hno'] at this; cases this
          · simp
        · intro p a ha hp
          rcases hnew _ _ _ ha with ha | ⟨rfl, rfl⟩
          · exact hi.blank p a ha hp
          · rfl
        · intro p a ha
          rcases hnew _ _ _ ha with ha | ⟨rfl, rfl⟩
          · exact hi.children p a ha
          · rfl
        · intro p a ha
          rcases hnew _ _ _ ha with ha | ⟨rfl, rfl⟩
          · exact hi.props p a ha
          · exact Map.ok_nil
        · intro p a ha
          rcases hnew _ _ _ ha with ha | ⟨rfl, rfl⟩
          · exact hi.typed p a ha
          · intro n t v h; cases h
        · intro p a ha
          rcases hnew _ _ _ ha with ha | ⟨rfl, rfl⟩
          · exact hi.noRefs p a ha
          · intro n q h; cases h
        · exact hi.prs
      · simp only [Map.get?_set]
        rw [if_neg]
        · exact h
        · intro e; rw [e, hno'] at h; cases h

theorem describes_iff (j : JVal) : describes j = true ↔ IsInstance j := by
  unfold describes IsInstance
  cases j with
  | obj m =>
    simp only [index]
    constructor
    · intro h
      split at h
      · rename_i cls hc; exact ⟨m, cls, rfl, hc⟩
      · cases h
    · rintro ⟨m', cls, e, hc⟩
      cases e
      rw [hc]
  | _ => simp [index]

/-- An object that describes no instance. -/
theorem instFrom_other {j : JVal} (h : describes j = false) (s : JState) : instFrom O it j s = .ok (none, (enter j s).2) := by
  cases j with
  | obj m =>
    rw [instFrom]
    unfold describes at h
    simp only [index] at h
    split
    · rename_i cls hc; rw [hc] at h; cases h
    · rfl
  | _ => rfl

theorem childrenFrom_step {done : List Nat} : ∀ (l : List JVal) {s s' : JState}, RInv done s → childrenFrom O it l s = .ok s' →
    RInv done s' ∧ Keep s s'
  | [], s, s', hi, h => by cases h; exact ⟨hi, .refl _⟩
  | j :: l, s, s', hi, h => by
    rw [childrenFrom] at h
    cases hd : describes j with
    | false =>
      rw [instFrom_other hd] at h
      simp only at h
      obtain ⟨h1, h2, -⟩ := enter_step hi j
      obtain ⟨h3, h4⟩ := childrenFrom_step l h1 h
      exact ⟨h3, h2.trans h4⟩
    | true =>
      obtain ⟨m, cls, rfl, hc⟩ := (describes_iff j).1 hd
      rw [instFrom, hc] at h
      simp only at h
      exfalso
      split at h
      · rename_i heq
        obtain ⟨s1, -, heq⟩ := Res.bind_eq_ok.1 heq
        obtain ⟨s2, -, heq⟩ := Res.bind_eq_ok.1 heq
        cases heq
      · cases h
      · cases h
      · cases h

theorem childrenField_step {done : List Nat} : ∀ (m : List (Bytes × JVal)) {s s' : JState}, RInv done s →
    childrenField O it m s = .ok s' → RInv done s' ∧ Keep s s'
  | [], s, s', hi, h => by cases h; exact ⟨hi, .refl _⟩
  | (k, v) :: m, s, s', hi, h => by
    rw [childrenField.eq_def] at h
    simp only at h
    split at h
    · split at h
      · exact childrenFrom_step _ hi h
      · cases h; exact ⟨hi, .refl _⟩
    · exact childrenField_step m hi h

/-! ## Properties -/

theorem propsFrom_outs {p : Nat} : ∀ (ps : List (Bytes × JVal)) {s s' : JState}, propsFrom O it p ps s = .ok s' →
    ∃ os : List (Bytes × PropOut), Each (fun x o => x.1 = o.1 ∧ propFrom O it x.2 = .ok o.2) ps os
  | [], s, s', _ => ⟨[], .nil⟩
  | (n, j) :: ps, s, s', h => by
    rw [propsFrom] at h
    split at h
    · rename_i hp
      obtain ⟨os, ho⟩ := propsFrom_outs ps h
      exact ⟨(n, .skip) :: os, .cons ⟨rfl, hp⟩ ho⟩
    · rename_i v hp
      obtain ⟨os, ho⟩ := propsFrom_outs ps h
      exact ⟨(n, .value v) :: os, .cons ⟨rfl, hp⟩ ho⟩
    · rename_i r hp
      obtain ⟨os, ho⟩ := propsFrom_outs ps h
      exact ⟨(n, .ref r) :: os, .cons ⟨rfl, hp⟩ ho⟩
    · cases h
    · cases h

/-- What becomes of the properties of an object, in the order of iteration. -/
def OutsOf (O : Overflow) (it : Iter) (p : Nat) (j : JVal) (os : List (Bytes × PropOut)) : Prop :=
  (∀ ps, index j (str "properties") = some (.obj ps) →
    Each (fun x o => x.1 = o.1 ∧ propFrom O it x.2 = .ok o.2) (it.run [p] ps) os) ∧
  ((∀ ps, index j (str "properties") ≠ some (.obj ps)) → os = [])

/-- The flag after the object has been read. -/
def serviceAfter (j : JVal) (b : Bool) : Bool :=
  match index j (str "is_service") with
  | some (.bool b) => b
  | _ => b

theorem props_eq {j : JVal} {p : Nat} {s s' : JState} {a : Inst Nat} (ha : s.heap.get? p = some a)
    (h : (match index j (str "properties") with
      | some (.obj ps) => propsFrom O it p (it.run [p] ps) s
      | _ => Res.ok s) = .ok s') : ∃ os, OutsOf O it p j os ∧ s' = { s with
      heap := s.heap.set p { a with properties := applyOuts os a.properties }
      propRefs := s.propRefs ++ refOuts p os } := by
  split at h
  · rename_i ps hps
    obtain ⟨os, ho⟩ := propsFrom_outs _ h
    refine ⟨os, ⟨fun ps' h' => ?_, fun h' => absurd hps (h' ps)⟩, ?_⟩
    · rw [hps] at h'; cases h'; exact ho
    · rw [propsFrom_eq ho ha] at h
      cases h
      rfl
  · rename_i hno
    cases h
    refine ⟨[], ⟨fun ps h' => absurd h' (hno ps), fun _ => rfl⟩, ?_⟩
    simp [applyOuts, refOuts, set_get ha]

theorem fill_eq {j : JVal} {p : Nat} {cls : Bytes} {s s' : JState} {a : Inst Nat} (ha : s.heap.get? p = some a)
    (h : fill O it j p cls s = .ok s') : ∃ os, OutsOf O it p j os ∧ s' = { s with
      heap := s.heap.set p { a with className := cls, isService := serviceAfter j a.isService, properties := applyOuts os a.properties }
      propRefs := s.propRefs ++ refOuts p os } := by
  unfold fill at h
  have e1 : s.update p (fun i => { i with className := cls }) = { s with heap := s.heap.set p { a with className := cls } } := by
    simp [JState.update, ha]
  have e2 : ∀ b, JState.update { s with heap := s.heap.set p { a with className := cls } } p (fun i => { i with isService := b }) =
      { s with heap := s.heap.set p { a with className := cls, isService := b } } := by
    intro b; simp [JState.update, set_set]
  simp only [e1] at h
  have fin : ∀ b, ∀ t : JState, t = { s with heap := s.heap.set p { a with className := cls, isService := b } } →
      (match index j (str "properties") with
      | some (.obj ps) => propsFrom O it p (it.run [p] ps) t
      | _ => Res.ok t) = .ok s' → ∃ os, OutsOf O it p j os ∧ s' = { s with
      heap := s.heap.set p { a with className := cls, isService := b, properties := applyOuts os a.properties }
      propRefs := s.propRefs ++ refOuts p os } := by
    intro b t ht h
    obtain ⟨os, ho, e⟩ := props_eq (a := { a with className := cls, isService := b }) (by rw [ht]; simp) h
    refine ⟨os, ho, ?_⟩
    rw [e, ht]
    simp [set_set]
  refine fin _ _ ?_ h
  unfold serviceAfter
  rcases index j (str "is_service") with _ | v
  · rfl
  · cases v <;> first | rfl | exact e2 _

/-- The values that are not references: what the conversion makes of them. -/
theorem propFrom_value {j : JVal} {v : Value Nat} (h : propFrom O it j = .ok (.value v)) :
    ∃ t w, index j (str "type") = some (.str t) ∧ index j (str "value") = some w ∧ typeNamed it t ≠ .reference ∧
      valueFrom O it (typeNamed it t) w = .ok (some v) := by
  unfold propFrom at h
  split at h
  · rename_i t w ht hw
    simp only at h
    split at h
    · rename_i x hx
      split at h
      · split at h <;> cases h
      · rename_i hne
        cases h
        exact ⟨t, w, ht, hw, hne, hx⟩
    · cases h
    · cases h
    · cases h
  · cases h

theorem propFrom_ref {j : JVal} {r : Bytes} (h : propFrom O it j = .ok (.ref r)) :
    ∃ t, index j (str "type") = some (.str t) ∧ index j (str "value") = some (.str r) ∧ typeNamed it t = .reference := by
  unfold propFrom at h
  split at h
  · rename_i t w ht hw
    simp only at h
    split at h
    · rename_i x hx
      split at h
      · rename_i hty
        split at h
        · cases h
          refine ⟨t, ht, ?_, hty⟩
          rw [hty, valueFrom_plain O it (by simp)] at hx
          cases w with
          | str s => cases hx; exact hw
          | _ => cases hx
        · cases h
      · cases h
    · cases h
    · cases h
    · cases h
  · cases h

theorem propFrom_skip {j : JVal} (h : propFrom O it j = .ok .skip) :
    (∃ t w, index j (str "type") = some (.str t) ∧ index j (str "value") = some w ∧
      ((typeNamed it t = .reference ∧ ∀ r, w ≠ .str r) ∨ (typeNamed it t ≠ .reference ∧ valueFrom O it (typeNamed it t) w = .ok (none : Option (Value Nat))))) ∨
    ¬ ∃ t w, index j (str "type") = some (.str t) ∧ index j (str "value") = some w := by
  unfold propFrom at h
  split at h
  · rename_i t w ht hw
    simp only at h
    split at h
    · rename_i x hx
      split at h
      · split at h <;> cases h
      · cases h
    · rename_i hx
      refine .inl ⟨t, w, ht, hw, ?_⟩
      by_cases hty : typeNamed it t = .reference
      · refine .inl ⟨hty, ?_⟩
        rintro r rfl
        have hx : valueFrom (ρ := Nat) O it (typeNamed it t) (.str r) = .ok none := hx
        rw [hty, valueFrom_plain O it (by simp)] at hx
        cases hx
      · exact .inr ⟨hty, hx⟩
    · cases h
    · cases h
  · rename_i hno
    refine .inr ?_
    rintro ⟨t, w, ht, hw⟩
    exact hno t w ht hw

/-- What the conversion of a value that is not a reference can be. -/
def Tame (v : Value Nat) : Prop := (∀ q, v ≠ .reference q) ∧ ∀ t x, v = .optional t (some x) → x.type = t

theorem baseFrom_tame {t : Ty} {j : JVal} {v : Value Nat} (h : baseFrom O t j = .ok (some v)) : Tame v := by
  have key : ∀ w : Value Nat, (∀ q, w ≠ .reference q) → (∀ t x, w ≠ .optional t x) → Tame w :=
    fun w h1 h2 => ⟨h1, fun t x e => absurd e (h2 t _)⟩
  unfold baseFrom at h
  split at h
  all_goals
    repeat' first
      | (cases h; exact key _ nofun nofun)
      | cases h
      | (obtain ⟨_, -, h⟩ := Res.bind_eq_ok.1 h)
      | split at h

theorem valueFrom_tame {t : Ty} {j : JVal} {v : Value Nat} (h : valueFrom O it t j = .ok (some v)) : Tame v := by
  by_cases ht : t = .optional
  · subst ht
    rw [valueFrom.eq_def] at h
    split at h
    · rename_i m
      simp only [if_true] at h
      split at h
      · generalize tyOf _ = t at h
        clear * - h
        induction m with
        | nil => rw [optionFrom] at h; cases h; exact ⟨nofun, nofun⟩
        | cons x m ih =>
          obtain ⟨k, v⟩ := x
          rw [optionFrom.eq_def] at h
          simp only at h
          split at h
          · split at h
            · cases h; exact ⟨nofun, nofun⟩
            · split at h
              · cases h
                refine ⟨nofun, fun t x e => ?_⟩
                cases e; rfl
              · cases h
          · exact ih h
      · cases h
    · simp only [if_true] at h
      cases h
  · rw [valueFrom_plain O it ht] at h
    exact baseFrom_tame h

theorem applyOuts_ok : ∀ (os : List (Bytes × PropOut)) {m : Map Bytes (Value Nat)}, m.Ok → (applyOuts os m).Ok
  | [], _, h => h
  | (_, .value _) :: os, _, h => applyOuts_ok os (Map.ok_set h _ _)
  | (_, .skip) :: os, _, h => applyOuts_ok os h
  | (_, .ref _) :: os, _, h => applyOuts_ok os h

theorem applyOuts_mem (n : Bytes) (v : Value Nat) : ∀ (os : List (Bytes × PropOut)) {m : Map Bytes (Value Nat)},
    (applyOuts os m).get? n = some v → (n, .value v) ∈ os ∨ m.get? n = some v
  | [], _, h => .inr h
  | (n', .value w) :: os, m, h => by
    rcases applyOuts_mem n v os h with h | h
    · exact .inl (by simp [h])
    · rw [Map.get?_set] at h
      split at h
      · rename_i e; cases h; subst e; exact .inl (by simp)
      · exact .inr h
  | (_, .skip) :: os, _, h => by
    rcases applyOuts_mem n v os h with h | h
    · exact .inl (by simp [h])
    · exact .inr h
  | (_, .ref _) :: os, _, h => by
    rcases applyOuts_mem n v os h with h | h
    · exact .inl (by simp [h])
    · exact .inr h

theorem OutsOf.tame {p : Nat} {j : JVal} {os : List (Bytes × PropOut)} (h : OutsOf O it p j os) {n : Bytes} {v : Value Nat}
    (hv : (n, .value v) ∈ os) : Tame v := by
  by_cases hp : ∃ ps, index j (str "properties") = some (.obj ps)
  · obtain ⟨ps, hp⟩ := hp
    obtain ⟨x, -, -, hx⟩ := Each.mem_right (h.1 ps hp) _ hv
    obtain ⟨t, w, -, -, -, h'⟩ := propFrom_value hx
    exact valueFrom_tame h'
  · rw [h.2 fun ps e => hp ⟨ps, e⟩] at hv
    cases hv

/-! ## An object that describes an instance -/

/-- The instance after the object has been read. -/
def filled (cls : Bytes) (j : JVal) (os : List (Bytes × PropOut)) (a : Inst Nat) : Inst Nat :=
  { className := cls, reference := a.reference, isService := serviceAfter j a.isService,
    properties := applyOuts os a.properties, children := [] }

theorem instFrom_step {done : List Nat} {s s' : JState} {j : JVal} {o : Option Nat} (hi : RInv done s) (hd : describes j = true)
    (h : instFrom O it j s = .ok (o, s')) :
    ∃ (cls : Bytes) (os : List (Bytes × PropOut)) (a : Inst Nat), index j (str "class_name") = some (.str cls) ∧
      o = some (enter j s).1 ∧ OutsOf O it (enter j s).1 j os ∧
      (enter j s).2.heap.get? (enter j s).1 = some a ∧ a.reference = referenceIn j ∧
      RInv ((enter j s).1 :: done) s' ∧ s'.heap.get? (enter j s).1 = some (filled cls j os a) ∧
      (∀ q b, q ≠ (enter j s).1 → s.heap.get? q = some b → s'.heap.get? q = some b) ∧
      (∀ r p, s.refs.get? r = some (some p) → s'.refs.get? r = some (some p)) ∧
      s'.propRefs = s.propRefs ++ refOuts (enter j s).1 os ∧ s.heap.length ≤ s'.heap.length := by
  obtain ⟨m, cls, rfl, hc⟩ := (describes_iff j).1 hd
  rw [instFrom, hc] at h
  simp only at h
  obtain ⟨s1, h1, h⟩ := Res.bind_eq_ok.1 h
  obtain ⟨s2, h2, h⟩ := Res.bind_eq_ok.1 h
  cases h
  obtain ⟨e1, e2, ⟨a, ha, har⟩, -⟩ := enter_step hi (.obj m)
  generalize hj : JVal.obj m = j at *
  generalize enter j s = e at *
  obtain ⟨p, s0⟩ := e
  simp only at *
  obtain ⟨os, ho, rfl⟩ := fill_eq ha h1
  have hu : ({ s0 with
      heap := s0.heap.set p { a with className := cls, isService := serviceAfter j a.isService, properties := applyOuts os a.properties }
      propRefs := s0.propRefs ++ refOuts p os } : JState).update p (fun i => { i with children := [] }) =
      { s0 with heap := s0.heap.set p (filled cls j os a), propRefs := s0.propRefs ++ refOuts p os } := by
    simp [JState.update, set_set, filled]
  rw [hu] at h2
  have hsome : (s0.heap.get? p).isSome := by rw [ha]; rfl
  have hcase : ∀ q b, (s0.heap.set p (filled cls j os a)).get? q = some b →
      (q = p ∧ b = filled cls j os a) ∨ (q ≠ p ∧ s0.heap.get? q = some b) := by
    intro q b h
    rw [Map.get?_set] at h
    split at h
    · rename_i e; cases h; exact .inl ⟨e, rfl⟩
    · rename_i e; exact .inr ⟨e, h⟩
  have hinv : RInv (p :: done) { s0 with heap := s0.heap.set p (filled cls j os a), propRefs := s0.propRefs ++ refOuts p os } := by
    constructor
    · intro q
      simp only
      rw [set_length hsome, ← e1.keys q, Map.get?_set]
      split
      · rename_i e; subst e; simp [hsome]
      · rfl
    · intro r o hr
      obtain ⟨n1, q, b, rfl, n2, n3⟩ := e1.named r o hr
      refine ⟨n1, q, ?_⟩
      by_cases hq : q = p
      · subst hq
        rw [ha] at n2; cases n2
        exact ⟨_, rfl, Map.get?_set_self _ _ _, n3⟩
      · exact ⟨b, rfl, by simp only; rw [Map.get?_set_ne _ _ hq]; exact n2, n3⟩
    · intro q b hb hne
      rcases hcase q b hb with ⟨rfl, rfl⟩ | ⟨-, hb⟩
      · exact e1.known q a ha hne
      · exact e1.known q b hb hne
    · intro q b hb hne
      simp only [List.mem_cons, not_or] at hne
      rcases hcase q b hb with ⟨rfl, rfl⟩ | ⟨-, hb⟩
      · exact absurd rfl hne.1
      · exact e1.blank q b hb hne.2
    · intro q b hb
      rcases hcase q b hb with ⟨rfl, rfl⟩ | ⟨-, hb⟩
      · rfl
      · exact e1.children q b hb
    · intro q b hb
      rcases hcase q b hb with ⟨rfl, rfl⟩ | ⟨-, hb⟩
      · exact applyOuts_ok os (e1.props q a ha)
      · exact e1.props q b hb
    · intro q b hb n t v hv
      rcases hcase q b hb with ⟨rfl, rfl⟩ | ⟨-, hb⟩
      · rcases applyOuts_mem n _ os hv with hm | hm
        · exact (ho.tame hm).2 t v rfl
        · exact e1.typed q a ha n t v hm
      · exact e1.typed q b hb n t v hv
    · intro q b hb n r hv
      rcases hcase q b hb with ⟨rfl, rfl⟩ | ⟨-, hb⟩
      · rcases applyOuts_mem n _ os hv with hm | hm
        · exact (ho.tame hm).1 r rfl
        · exact e1.noRefs q a ha n r hm
      · exact e1.noRefs q b hb n r hv
    · intro pr hpr
      rcases List.mem_append.1 hpr with hpr | hpr
      · obtain ⟨q, hq, e⟩ := e1.prs pr hpr
        exact ⟨q, by simp [hq], e⟩
      · obtain ⟨n, r, -, rfl⟩ := mem_refOuts.1 hpr
        exact ⟨p, by simp, rfl⟩
  obtain ⟨f1, f2⟩ := childrenField_step m hinv h2
  refine ⟨cls, os, a, by rw [← hj]; exact hc, trivial, ho, ha, har, f1, f2.heap p _ (Map.get?_set_self _ _ _), ?_, ?_, ?_, ?_⟩
  · intro q b hq hb
    refine f2.heap q b ?_
    simp only
    rw [Map.get?_set_ne _ _ hq]
    exact e2.heap q b hb
  · intro r q hr
    exact f2.refs r q (e2.refs r q hr)
  · rw [f2.propRefs, ← e2.propRefs]
  · refine Nat.le_trans e2.length (Nat.le_trans ?_ f2.length)
    simp only
    rw [set_length hsome]

/-! ## Lists of objects -/

theorem listFrom_cons {s s' : JState} {j : JVal} {l : List JVal} {ps : List Nat} (h : listFrom O it (j :: l) s = .ok (ps, s')) :
    ∃ o s1 ps1, instFrom O it j s = .ok (o, s1) ∧ listFrom O it l s1 = .ok (ps1, s') ∧ ps = o.toList ++ ps1 := by
  rw [listFrom] at h
  obtain ⟨⟨o, s1⟩, h1, h⟩ := Res.bind_eq_ok.1 h
  obtain ⟨⟨ps1, s2⟩, h2, h⟩ := Res.bind_eq_ok.1 h
  cases h
  exact ⟨o, s1, ps1, h1, h2, rfl⟩

theorem RInv.mem {done done' : List Nat} {s : JState} (h : RInv done s) (e : ∀ p, p ∈ done' ↔ p ∈ done) : RInv done' s :=
  ⟨h.keys, h.named, h.known, fun p a ha hp => h.blank p a ha fun hd => hp ((e p).2 hd), h.children, h.props, h.typed, h.noRefs,
    fun pr hpr => by obtain ⟨p, hp, e'⟩ := h.prs pr hpr; exact ⟨p, (e p).2 hp, e'⟩⟩

/-- What the list of instances does to the state. -/
structure Listed (done : List Nat) (l : List JVal) (s : JState) (ps : List Nat) (s' : JState) : Prop where
  inv : RInv (ps ++ done) s'
  keep : ∀ q b, q ∉ ps → s.heap.get? q = some b → s'.heap.get? q = some b
  refKeep : ∀ q b, s.heap.get? q = some b → ∃ b', s'.heap.get? q = some b' ∧ b'.reference = b.reference
  refs : ∀ r p, s.refs.get? r = some (some p) → s'.refs.get? r = some (some p)
  propRefs : ∃ extra, s'.propRefs = s.propRefs ++ extra ∧ ∀ pr ∈ extra, ∃ p ∈ ps, pr.inst = some p
  each : List.Forall₂ (fun j p => ∃ a, s'.heap.get? p = some a ∧ a.reference = referenceIn j) (l.filter describes) ps
  mem : ∀ p a, s.heap.get? p = some a →
    (p ∈ ps ↔ a.reference ≠ [] ∧ ∃ j ∈ l.filter describes, referenceIn j = a.reference)

theorem same_of_reference {done : List Nat} {s : JState} (hi : RInv done s) {p q : Nat} {a b : Inst Nat} (ha : s.heap.get? p = some a)
    (hb : s.heap.get? q = some b) (hr : a.reference = b.reference) (hne : a.reference ≠ []) : p = q := by
  have h1 := hi.known p a ha hne
  have h2 := hi.known q b hb (by rw [← hr]; exact hne)
  rw [hr] at h1
  rw [h1] at h2
  cases h2
  rfl

theorem listed : ∀ (l : List JVal) {done : List Nat} {s s' : JState} {ps : List Nat}, RInv done s →
    listFrom O it l s = .ok (ps, s') → Listed done l s ps s'
  | [], done, s, s', ps, hi, h => by
    cases h
    exact ⟨hi, fun _ _ _ h => h, fun _ b h => ⟨b, h, rfl⟩, fun _ _ h => h, ⟨[], by simp, nofun⟩, .nil, fun p a _ => by simp⟩
  | j :: l, done, s, s', ps, hi, h => by
    obtain ⟨o, s1, ps1, h1, h2, rfl⟩ := listFrom_cons h
    cases hd : describes j with
    | false =>
      rw [instFrom_other hd] at h1
      cases h1
      obtain ⟨e1, e2, -, -⟩ := enter_step hi j
      have ih := listed l e1 h2
      have hfil : (j :: l).filter describes = l.filter describes := by simp [hd]
      simp only [Option.toList_none, List.nil_append]
      refine ⟨ih.inv, fun q b hq hb => ih.keep q b hq (e2.heap q b hb), fun q b hb => ih.refKeep q b (e2.heap q b hb),
        fun r p hr => ih.refs r p (e2.refs r p hr), ?_, by rw [hfil]; exact ih.each, fun p a ha => by rw [hfil]; exact ih.mem p a (e2.heap p a ha)⟩
      obtain ⟨extra, x1, x2⟩ := ih.propRefs
      exact ⟨extra, by rw [x1, e2.propRefs], x2⟩
    | true =>
      obtain ⟨e1, e2, -, hnew⟩ := enter_step hi j
      obtain ⟨cls, os, a, hc, rfl, ho, ha, har, i1, i2, i3, i4, i5, i6⟩ := instFrom_step hi hd h1
      generalize enter j s = e at *
      obtain ⟨p, s0⟩ := e
      simp only at *
      have ih := listed l i1 h2
      have hfil : (j :: l).filter describes = j :: l.filter describes := by simp [hd]
      simp only [Option.toList_some, List.singleton_append]
      refine ⟨ih.inv.mem (by intro p; simp; grind), ?_, ?_, fun r p hr => ih.refs r p (i4 r p hr), ?_, ?_, ?_⟩
      · intro q b hq hb
        simp only [List.mem_cons, not_or] at hq
        exact ih.keep q b hq.2 (i3 q b hq.1 hb)
      · intro q b hb
        by_cases hq : q = p
        · subst hq
          obtain ⟨b', x1, x2⟩ := ih.refKeep q _ i2
          refine ⟨b', x1, x2.trans ?_⟩
          have := e2.heap q b hb
          rw [ha] at this; cases this
          rfl
        · exact ih.refKeep q b (i3 q b hq hb)
      · obtain ⟨extra, x1, x2⟩ := ih.propRefs
        refine ⟨refOuts p os ++ extra, by rw [x1, i5]; simp, ?_⟩
        intro pr hpr
        rcases List.mem_append.1 hpr with hpr | hpr
        · obtain ⟨n, r, -, rfl⟩ := mem_refOuts.1 hpr
          exact ⟨p, by simp, rfl⟩
        · obtain ⟨q, hq, e⟩ := x2 pr hpr
          exact ⟨q, by simp [hq], e⟩
      · rw [hfil]
        refine .cons ?_ ih.each
        obtain ⟨b', x1, x2⟩ := ih.refKeep p _ i2
        exact ⟨b', x1, x2.trans har⟩
      · intro q b hb
        rw [hfil]
        by_cases hq : q = p
        · subst hq
          have hb0 := e2.heap q b hb
          rw [ha] at hb0; cases hb0
          refine iff_of_true (by simp) ⟨?_, j, by simp, har.symm⟩
          intro e
          rw [har] at e
          have := hnew e
          have hlt := (hi.keys q).1 (by rw [hb]; rfl)
          omega
        · have := ih.mem q b (i3 q b hq hb)
          simp only [List.mem_cons, hq, false_or, this]
          constructor
          · rintro ⟨x1, j', x2, x3⟩
            exact ⟨x1, j', .inr x2, x3⟩
          · rintro ⟨x1, j', x2 | x2, x3⟩
            · subst x2
              exact absurd (same_of_reference e1 (e2.heap q b hb) ha (by rw [har, x3]) x1) hq
            · exact ⟨x1, j', x2, x3⟩

theorem listed_nodup : ∀ (l : List JVal) {done : List Nat} {s s' : JState} {ps : List Nat}, RInv done s →
    listFrom O it l s = .ok (ps, s') → (ps.Nodup ↔ DescribedApart (l.filter describes))
  | [], done, s, s', ps, hi, h => by
    cases h
    simp [DescribedApart]
  | j :: l, done, s, s', ps, hi, h => by
    obtain ⟨o, s1, ps1, h1, h2, rfl⟩ := listFrom_cons h
    cases hd : describes j with
    | false =>
      rw [instFrom_other hd] at h1
      cases h1
      have ih := listed_nodup l (enter_step hi j).1 h2
      simpa [hd] using ih
    | true =>
      obtain ⟨cls, os, a, hc, rfl, ho, ha, har, i1, i2, i3, i4, i5, i6⟩ := instFrom_step hi hd h1
      have ih := listed_nodup l i1 h2
      have hm := (listed l i1 h2).mem _ _ i2
      have hfil : (j :: l).filter describes = j :: l.filter describes := by simp [hd]
      rw [hfil]
      unfold DescribedApart at ih ⊢
      rw [Option.toList_some, List.singleton_append, List.nodup_cons, List.pairwise_cons, ih, hm]
      have : (filled cls j os a).reference = referenceIn j := har
      rw [this]
      constructor
      · rintro ⟨x1, x2⟩
        exact ⟨fun j' hj' hne e => x1 ⟨hne, j', hj', e.symm⟩, x2⟩
      · rintro ⟨x1, x2⟩
        exact ⟨fun ⟨hne, j', hj', e⟩ => x1 j' hj' hne e.symm, x2⟩

/-- What an object makes of a blank instance, for good. -/
def ReadAs (O : Overflow) (it : Iter) (s' : JState) (j : JVal) (p : Nat) : Prop :=
  ∃ cls os, index j (str "class_name") = some (.str cls) ∧ OutsOf O it p j os ∧
    s'.heap.get? p = some (filled cls j os { className := [], reference := referenceIn j }) ∧
    ∀ pr : PropRef Nat, pr.inst = some p → (pr ∈ s'.propRefs ↔ pr ∈ refOuts p os)

theorem listed_read : ∀ (l : List JVal) {done : List Nat} {s s' : JState} {ps : List Nat}, RInv done s →
    listFrom O it l s = .ok (ps, s') → ps.Nodup → (∀ p ∈ ps, p ∉ done) →
    List.Forall₂ (ReadAs O it s') (l.filter describes) ps
  | [], done, s, s', ps, hi, h, _, _ => by
    cases h
    exact .nil
  | j :: l, done, s, s', ps, hi, h, hnd, hnew => by
    obtain ⟨o, s1, ps1, h1, h2, rfl⟩ := listFrom_cons h
    cases hd : describes j with
    | false =>
      rw [instFrom_other hd] at h1
      cases h1
      have ih := listed_read l (enter_step hi j).1 h2 (by simpa using hnd) (by simpa using hnew)
      simpa [hd] using ih
    | true =>
      obtain ⟨e1, e2, -, -⟩ := enter_step hi j
      obtain ⟨cls, os, a, hc, rfl, ho, ha, har, i1, i2, i3, i4, i5, i6⟩ := instFrom_step hi hd h1
      generalize enter j s = e at *
      obtain ⟨p, s0⟩ := e
      simp only [Option.toList_some, List.singleton_append, List.nodup_cons, List.mem_cons] at *
      have ih := listed_read l i1 h2 hnd.2 (by
        intro q hq
        simp only [List.mem_cons, not_or]
        exact ⟨by rintro rfl; exact hnd.1 hq, hnew q (.inr hq)⟩)
      have hl := listed l i1 h2
      have hfil : (j :: l).filter describes = j :: l.filter describes := by simp [hd]
      rw [hfil]
      refine .cons ⟨cls, os, hc, ho, ?_, ?_⟩ ih
      · rw [hl.keep p _ hnd.1 i2]
        have := e1.blank p a ha (hnew p (.inl rfl))
        rw [har] at this
        rw [this]
      · intro pr hpr
        obtain ⟨extra, x1, x2⟩ := hl.propRefs
        rw [x1, i5]
        simp only [List.mem_append]
        constructor
        · rintro ((hx | hx) | hx)
          · obtain ⟨q, hq, e⟩ := hi.prs pr hx
            rw [hpr] at e; cases e
            exact absurd hq (hnew p (.inl rfl))
          · exact hx
          · obtain ⟨q, hq, e⟩ := x2 pr hx
            rw [hpr] at e; cases e
            exact absurd hq hnd.1
        · exact fun hx => .inl (.inr hx)

end Json

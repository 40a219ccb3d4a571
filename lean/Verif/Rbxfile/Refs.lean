import Verif.Rbxfile.Names
/-!
# References (ref.go)
-/
namespace Rbxfile
open Go

variable {ρ : Type} [DecidableEq ρ]

/-- `References` (ref.go:17); a nil pointer may be stored under a key. -/
abbrev References (ρ : Type) := Map Bytes (Option ρ)

/-- `refs[r]`: nil if the key is missing. -/
def References.at (refs : References ρ) (r : Bytes) : Option ρ := (refs.get? r).join

/-- `PropRef` (ref.go:10-14). -/
structure PropRef (ρ : Type) where
  inst : Option ρ
  property : Bytes
  reference : Bytes

/-- `IsEmptyReference` (ref.go:74-81). -/
def isEmptyReference (ref : Bytes) : Bool :=
  decide (ref = []) || decide (ref = str "null") || decide (ref = str "nil")

/-- `References.Resolve` (ref.go:22-34) on a map that is not nil: the result and the heap. The
`Properties` map is assumed not to be nil. -/
def References.resolve (refs : References ρ) (pr : PropRef ρ) (h : Heap ρ) : Bool × Heap ρ :=
  match pr.inst with
  | none => (false, h)
  | some c =>
    match h.get? c with
    | none => (false, h)
    | some inst =>
      let referent := refs.at pr.reference
      (referent.isSome && !isEmptyReference pr.reference,
        h.set c { inst with properties := inst.properties.set pr.property (.reference referent) })

/-- The loop that generates references until one is not in the map (ref.go:54-65). `gen k` is the
`k`-th reference generated; `fuel` bounds the number of attempts: the result is `none` when all of
them failed (the loop in Go has no bound). Otherwise the result is the reference and the position
after it. -/
def genLoop (gen : Nat → Bytes) (refs : References ρ) : Nat → Nat → Option (Bytes × Nat)
  | 0, _ => none
  | fuel + 1, k =>
    if (refs.get? (gen k)).isSome then genLoop gen refs fuel (k + 1) else some (gen k, k + 1)

/-- The variables that `References.Get` reads and writes: the instances, the map, and the position
in the stream of random references. -/
structure RefState (ρ : Type) where
  heap : Heap ρ
  refs : References ρ
  pos : Nat

/-- `References.Get` (ref.go:40-70) on a map that is not nil. Running out of fuel is shown as an
error, which the Go function does not have. A pointer outside the heap does not occur. -/
def getRef (gen : Nat → Bytes) (fuel : Nat) (st : RefState ρ) : Option ρ → Res (Bytes × RefState ρ)
  | none => .ok ([], st)
  | some p =>
    match st.heap.get? p with
    | none => .panic
    | some inst =>
      let ref := inst.reference
      if isEmptyReference ref || ((st.refs.at ref).isSome && decide (st.refs.at ref ≠ some p)) then
        match genLoop gen st.refs fuel st.pos with
        | none => .err (.other "no fresh reference generated")
        | some (ref, pos) =>
          .ok (ref, ⟨st.heap.set p { inst with reference := ref }, st.refs.set ref (some p), pos⟩)
      else .ok (ref, ⟨st.heap, st.refs.set ref (some p), st.pos⟩)

/-- `References.Get` on a nil map returns the reference of the instance (ref.go:45-48). -/
def getRefNil (h : Heap ρ) : Option ρ → Bytes
  | none => []
  | some p => ((h.get? p).map Inst.reference).getD []

/-! ## Lemmas -/

theorem References.at_set (refs : References ρ) (r r' : Bytes) (x : Option ρ) :
    References.at (refs.set r x) r' = if r' = r then x else refs.at r' := by
  simp only [References.at, Map.get?_set]
  split <;> simp

theorem References.at_none {refs : References ρ} {r : Bytes} (h : refs.get? r = none) :
    refs.at r = none := by simp [References.at, h]

theorem genLoop_some (gen : Nat → Bytes) (refs : References ρ) :
    ∀ {fuel k : Nat} {r : Bytes} {k' : Nat}, genLoop gen refs fuel k = some (r, k') →
      refs.get? r = none ∧ ∃ j, k ≤ j ∧ r = gen j
  | 0, _, _, _, h => by simp [genLoop] at h
  | fuel + 1, k, r, k', h => by
    simp only [genLoop] at h
    split at h
    · obtain ⟨h1, j, hj, h2⟩ := genLoop_some gen refs h
      exact ⟨h1, j, by omega, h2⟩
    · rename_i hn
      simp only [Option.some.injEq, Prod.mk.injEq] at h
      obtain ⟨rfl, rfl⟩ := h
      exact ⟨by simpa using hn, k, Nat.le_refl _, rfl⟩

/-- What a call of `Get` for an instance does. -/
structure GetSpec (st : RefState ρ) (p : ρ) (r : Bytes) (st' : RefState ρ) : Prop where
  nonempty : isEmptyReference r = false
  /-- the map is extended by `r` and nothing is lost -/
  mono : ∀ r' q, st.refs.at r' = some q → st'.refs.at r' = some q
  marked : st'.refs.at r = some p
  only : ∀ r' q, st'.refs.at r' = some q → st.refs.at r' = some q ∨ (r' = r ∧ q = p)
  /-- only the reference of `p` may change -/
  self : ∃ a, st.heap.get? p = some a ∧ st'.heap.get? p = some { a with reference := r }
  others : ∀ q, q ≠ p → st'.heap.get? q = st.heap.get? q
  keys : ∀ q, (st'.heap.get? q).isSome = (st.heap.get? q).isSome
  /-- a reference that is already marked is kept -/
  kept : ∀ a, st.heap.get? p = some a → isEmptyReference a.reference = false →
    (st.refs.at a.reference = some p ∨ st.refs.at a.reference = none) → r = a.reference

theorem getRef_spec {gen : Nat → Bytes} (hgen : ∀ k, isEmptyReference (gen k) = false) {fuel : Nat}
    {st st' : RefState ρ} {p : ρ} {r : Bytes} (h : getRef gen fuel st (some p) = .ok (r, st')) :
    GetSpec st p r st' := by
  simp only [getRef] at h
  cases hp : st.heap.get? p with
  | none => simp [hp] at h
  | some inst =>
    simp only [hp] at h
    split at h
    · rename_i hc
      cases hg : genLoop gen st.refs fuel st.pos with
      | none => simp [hg] at h
      | some x =>
        obtain ⟨r0, pos⟩ := x
        simp only [hg, Res.ok.injEq, Prod.mk.injEq] at h
        obtain ⟨rfl, rfl⟩ := h
        obtain ⟨h1, j, _, rfl⟩ := genLoop_some gen st.refs hg
        have h1' := References.at_none h1
        refine ⟨hgen j, ?_, by simp [References.at_set], ?_, ⟨inst, hp, by simp⟩, ?_, ?_, ?_⟩
        · intro r' q hq
          simp only [References.at_set]
          split
          · subst_vars; rw [h1'] at hq; cases hq
          · exact hq
        · intro r' q hq
          simp only [References.at_set] at hq
          split at hq
          · cases hq; exact .inr ⟨by assumption, rfl⟩
          · exact .inl hq
        · intro q hq
          simp [Map.get?_set, hq]
        · intro q
          simp only [Map.get?_set]
          split
          · subst_vars; simp [hp]
          · rfl
        · intro a ha he hr
          rw [hp] at ha
          cases ha
          rw [he] at hc
          simp only [Bool.false_or, Bool.and_eq_true, decide_eq_true_eq] at hc
          rcases hr with hr | hr
          · exact absurd hr hc.2
          · rw [hr] at hc; simp at hc
    · rename_i hc
      simp only [Res.ok.injEq, Prod.mk.injEq] at h
      obtain ⟨rfl, rfl⟩ := h
      simp only [Bool.or_eq_true, Bool.and_eq_true, decide_eq_true_eq, not_or, not_and] at hc
      have hcase : st.refs.at inst.reference = none ∨ st.refs.at inst.reference = some p := by
        cases hx : st.refs.at inst.reference with
        | none => exact .inl rfl
        | some q =>
          rw [hx] at hc
          have h2 := hc.2 rfl
          rw [Classical.not_not] at h2
          exact .inr h2
      refine ⟨by simpa using hc.1, ?_, by simp [References.at_set], ?_, ⟨inst, hp, by simp [hp]⟩,
        fun q _ => rfl, fun q => rfl, fun a ha _ _ => by rw [hp] at ha; cases ha; rfl⟩
      · intro r' q hq
        simp only [References.at_set]
        split
        · subst_vars
          rcases hcase with hx | hx
          · rw [hx] at hq; cases hq
          · rw [hx] at hq; exact hq
        · exact hq
      · intro r' q hq
        simp only [References.at_set] at hq
        split at hq
        · cases hq; exact .inr ⟨by assumption, rfl⟩
        · exact .inl hq

theorem generateReference_nonempty (rand : Bytes) :
    isEmptyReference (generateReference rand) = false := by
  have e : ∃ x, generateReference rand = 82#8 :: x := ⟨_, rfl⟩
  obtain ⟨x, hx⟩ := e
  have h1 : ¬ (82#8 :: x : Bytes) = str "null" := by
    intro h; rw [show str "null" = [110#8, 117#8, 108#8, 108#8] by decide] at h; simp at h
  have h2 : ¬ (82#8 :: x : Bytes) = str "nil" := by
    intro h; rw [show str "nil" = [110#8, 105#8, 108#8] by decide] at h; simp at h
  rw [hx]
  simp [isEmptyReference, h1, h2]

/-- A stream of references that is not exhausted by `n` marked ones: among any `fuel` consecutive
references one is not in a given list of at most `n`. -/
def Fresh (gen : Nat → Bytes) (n fuel : Nat) : Prop :=
  ∀ (s : List Bytes) (k : Nat), s.length ≤ n → ∃ j, j < fuel ∧ gen (k + j) ∉ s

omit [DecidableEq ρ] in
theorem genLoop_total {gen : Nat → Bytes} {refs : References ρ} :
    ∀ {fuel k : Nat}, (∃ j, j < fuel ∧ gen (k + j) ∉ refs.map Prod.fst) →
      ∃ x, genLoop gen refs fuel k = some x
  | 0, k, ⟨j, hj, _⟩ => by omega
  | fuel + 1, k, ⟨j, hj, h⟩ => by
    simp only [genLoop]
    split
    · rename_i hs
      have hj0 : j ≠ 0 := by
        rintro rfl
        exact h (Map.get?_isSome.1 hs)
      exact genLoop_total ⟨j - 1, by omega, by rwa [show k + 1 + (j - 1) = k + j by omega]⟩
    · exact ⟨_, rfl⟩

theorem getRef_total {gen : Nat → Bytes} {n fuel : Nat} (hf : Fresh gen n fuel) {st : RefState ρ}
    (hn : st.refs.length ≤ n) {q : Option ρ} (hq : ∀ p, q = some p → (st.heap.get? p).isSome) :
    ∃ r st', getRef gen fuel st q = .ok (r, st') ∧ st'.refs.length ≤ st.refs.length + 1 := by
  have hlen : ∀ (m : References ρ) (r : Bytes) (x : Option ρ), (m.set r x).length ≤ m.length + 1 := by
    intro m r x
    have := congrArg List.length (Map.map_fst_set m r x)
    rw [List.length_map] at this
    rw [this]
    split <;> simp
  cases q with
  | none => exact ⟨[], st, rfl, by omega⟩
  | some p =>
    obtain ⟨inst, hi⟩ := Option.isSome_iff_exists.1 (hq p rfl)
    simp only [getRef, hi]
    split
    · obtain ⟨x, hx⟩ := genLoop_total (gen := gen) (refs := st.refs) (fuel := fuel) (k := st.pos)
        (hf (st.refs.map Prod.fst) st.pos (by simpa using hn))
      obtain ⟨r, pos⟩ := x
      simp only [hx]
      exact ⟨_, _, rfl, hlen _ _ _⟩
    · exact ⟨_, _, rfl, hlen _ _ _⟩

end Rbxfile

import Verif.Rbxfile.Refs
/-!
# C29, C32: references
-/
namespace Props
open Go Rbxfile

variable {ρ : Type} [DecidableEq ρ]

/-- A sequence of calls of `Get` on one `References`: the results and the state afterwards. -/
def getAll (gen : Nat → Bytes) (fuel : Nat) :
    RefState ρ → List (Option ρ) → Res (List Bytes × RefState ρ)
  | st, [] => .ok ([], st)
  | st, p :: ps => do
    let (r, st) ← getRef gen fuel st p
    let (rs, st) ← getAll gen fuel st ps
    pure (r :: rs, st)

/-- The reference strings come from `GenerateReference` on arbitrary random bytes. -/
def genOf (rand : Nat → Bytes) : Nat → Bytes := fun k => generateReference (rand k)

theorem genOf_nonempty (rand : Nat → Bytes) (k : Nat) : isEmptyReference (genOf rand k) = false :=
  generateReference_nonempty _

/-- After a call for `p` that returned `r`, later calls leave the mark `r ↦ p` and the reference of
`p` alone. -/
def Marked (st : RefState ρ) (p : ρ) (r : Bytes) : Prop :=
  isEmptyReference r = false ∧ st.refs.at r = some p ∧ ∃ a, st.heap.get? p = some a ∧ a.reference = r

theorem Marked.step {rand : Nat → Bytes} {fuel : Nat} {st st' : RefState ρ} {p : ρ} {r : Bytes}
    (hm : Marked st p r) {q : Option ρ} {r' : Bytes}
    (h : getRef (genOf rand) fuel st q = .ok (r', st')) :
    Marked st' p r ∧ (q = some p → r' = r) := by
  cases q with
  | none =>
    simp only [getRef, Res.ok.injEq, Prod.mk.injEq] at h
    obtain ⟨_, rfl⟩ := h
    exact ⟨hm, by simp⟩
  | some q =>
    obtain ⟨h1, h2, a, h3, h4⟩ := hm
    have sp := getRef_spec (genOf_nonempty rand) h
    by_cases hq : q = p
    · subst hq
      have e : r' = r := by
        rw [← h4]
        exact sp.kept a h3 (by rw [h4]; exact h1) (.inl (by rw [h4]; exact h2))
      subst e
      obtain ⟨b, hb, hb'⟩ := sp.self
      exact ⟨⟨h1, sp.marked, _, hb', rfl⟩, fun _ => rfl⟩
    · refine ⟨⟨h1, sp.mono _ _ h2, a, ?_, h4⟩, ?_⟩
      · rw [sp.others p (fun e => hq e.symm), h3]
      · intro e; exact absurd (Option.some.inj e) hq

theorem getAll_marked {rand : Nat → Bytes} {fuel : Nat} :
    ∀ {ps : List (Option ρ)} {st st' : RefState ρ} {rs : List Bytes},
      getAll (genOf rand) fuel st ps = .ok (rs, st') →
      (∀ p r, Marked st p r → Marked st' p r ∧ ∀ i : Nat, ps[i]? = some (some p) → rs[i]? = some r) ∧
      (∀ (i : Nat) p, ps[i]? = some (some p) → ∃ r, rs[i]? = some r ∧ Marked st' p r) ∧
      (∀ i : Nat, ps[i]? = some none → rs[i]? = some [])
  | [], st, st', rs, h => by
    simp only [getAll, Res.ok.injEq, Prod.mk.injEq] at h
    obtain ⟨rfl, rfl⟩ := h
    exact ⟨fun p r hm => ⟨hm, fun i hi => by simp at hi⟩, fun i p hi => by simp at hi,
      fun i hi => by simp at hi⟩
  | q :: ps, st, st', rs, h => by
    simp only [getAll] at h
    obtain ⟨⟨r0, st0⟩, h0, h⟩ := Res.bind_eq_ok.1 h
    obtain ⟨⟨rs0, st1⟩, h1, h⟩ := Res.bind_eq_ok.1 h
    simp only [Res.pure_eq, Res.ok.injEq, Prod.mk.injEq] at h
    obtain ⟨rfl, rfl⟩ := h
    obtain ⟨i1, i2, i3⟩ := getAll_marked h1
    refine ⟨?_, ?_, ?_⟩
    · intro p r hm
      obtain ⟨hs, hr⟩ := hm.step h0
      obtain ⟨a, b⟩ := i1 p r hs
      refine ⟨a, ?_⟩
      intro i hi
      cases i with
      | zero =>
        simp only [List.getElem?_cons_zero, Option.some.injEq] at hi ⊢
        exact hr hi
      | succ i => exact b i (by simpa using hi)
    · intro i p hi
      cases i with
      | zero =>
        simp only [List.getElem?_cons_zero, Option.some.injEq] at hi
        subst hi
        have sp := getRef_spec (genOf_nonempty rand) h0
        obtain ⟨a, _, ha⟩ := sp.self
        have hm : Marked st0 p r0 := ⟨sp.nonempty, sp.marked, _, ha, rfl⟩
        exact ⟨r0, rfl, (i1 p r0 hm).1⟩
      | succ i => exact i2 i p (by simpa using hi)
    · intro i hi
      cases i with
      | zero =>
        simp only [List.getElem?_cons_zero, Option.some.injEq] at hi
        subst hi
        simp only [getRef, Res.ok.injEq, Prod.mk.injEq] at h0
        simp [h0.1]
      | succ i => exact i3 i (by simpa using hi)

/-- C29: over any sequence of calls of Get on one References (which may contain anything at the
beginning), whatever the random source: a call for an instance returns a non-empty reference, the
instance carries it and the map maps it to the instance; two calls return the same reference exactly
when they are for the same instance; a call for nil returns the empty string. -/
theorem C29_unique_references (rand : Nat → Bytes) (fuel : Nat) (st st' : RefState ρ)
    (ps : List (Option ρ)) (rs : List Bytes)
    (h : getAll (genOf rand) fuel st ps = .ok (rs, st')) :
    (∀ (i : Nat) p, ps[i]? = some (some p) → ∃ r, rs[i]? = some r ∧ isEmptyReference r = false ∧
      st'.refs.at r = some p ∧ (st'.heap.get? p).map Inst.reference = some r) ∧
    (∀ (i j : Nat) p q, ps[i]? = some (some p) → ps[j]? = some (some q) → (rs[i]? = rs[j]? ↔ p = q)) ∧
    (∀ i : Nat, ps[i]? = some none → rs[i]? = some []) := by
  obtain ⟨_, h2, h3⟩ := getAll_marked h
  refine ⟨?_, ?_, h3⟩
  · intro i p hi
    obtain ⟨r, hr, e, m, a, ha, har⟩ := h2 i p hi
    exact ⟨r, hr, e, m, by simp [ha, har]⟩
  · intro i j p q hi hj
    obtain ⟨r, hr, _, m, a, ha, har⟩ := h2 i p hi
    obtain ⟨r', hr', _, m', a', ha', har'⟩ := h2 j q hj
    rw [hr, hr']
    constructor
    · intro e
      cases e
      rw [m] at m'
      exact Option.some.inj m'
    · rintro rfl
      rw [ha] at ha'
      cases ha'
      rw [← har, ← har']

/-- C29: Get changes nothing but the reference of the instance it is called for, and keeps that one
if it is not empty and not taken by another instance. -/
theorem C29_get_frame (rand : Nat → Bytes) (fuel : Nat) (st st' : RefState ρ) (p : ρ) (r : Bytes)
    (h : getRef (genOf rand) fuel st (some p) = .ok (r, st')) :
    (∀ q, q ≠ p → st'.heap.get? q = st.heap.get? q) ∧
    (∃ a, st.heap.get? p = some a ∧ st'.heap.get? p = some { a with reference := r } ∧
      (isEmptyReference a.reference = false →
        (st.refs.at a.reference = none ∨ st.refs.at a.reference = some p) → r = a.reference)) := by
  have sp := getRef_spec (genOf_nonempty rand) h
  obtain ⟨a, h1, h2⟩ := sp.self
  exact ⟨sp.others, a, h1, h2, fun he hr => sp.kept a h1 he hr.symm⟩

/-- C29: Get returns as soon as the random source gives a reference that is not taken: for a source
that among any `fuel` consecutive references has one outside any list of `n`, a call on a map with at
most `n` entries returns. -/
theorem C29_get_returns (gen : Nat → Bytes) (n fuel : Nat) (hf : Fresh gen n fuel) (st : RefState ρ)
    (hn : st.refs.length ≤ n) (q : Option ρ) (hq : ∀ p, q = some p → (st.heap.get? p).isSome) :
    ∃ r st', getRef gen fuel st q = .ok (r, st') := by
  obtain ⟨r, st', h, _⟩ := getRef_total hf hn hq
  exact ⟨r, st', h⟩

/-! ### Examples -/

/-- Random bytes: the position as a number. -/
def counter : Nat → Bytes := fun k => List.replicate 14 0#8 ++ [BitVec.ofNat 8 (k / 256), BitVec.ofNat 8 k]

/-- Three instances, two of them with the same reference, one with none. -/
def exRefs : RefState Nat :=
  ⟨[(0, { className := str "A", reference := str "R" }), (1, { className := str "B", reference := str "R" }),
    (2, { className := str "C" })], [], 0⟩

example : ((getAll (genOf counter) 4 exRefs [some 0, some 1, none, some 2, some 0]) >>= fun x =>
    pure (x.1.map (·.length)) : Res (List Nat)) = .ok [1, 35, 0, 35, 1] := by decide +kernel

/-- A source that counts has a fresh reference among any two when one is taken. -/
example : Fresh (fun k => [82#8, BitVec.ofNat 8 k]) 1 2 := by
  intro s k hs
  have hne : BitVec.ofNat 8 (k + 1) ≠ BitVec.ofNat 8 (k + 0) := by
    intro h
    have := congrArg BitVec.toNat h
    simp only [BitVec.toNat_ofNat] at this
    omega
  match s, hs with
  | [], _ => exact ⟨0, by omega, by simp⟩
  | [x], _ =>
    by_cases h : [82#8, BitVec.ofNat 8 (k + 0)] = x
    · refine ⟨1, by omega, ?_⟩
      simp only [List.mem_singleton]
      intro h'
      rw [← h] at h'
      simp only [List.cons.injEq, and_true, true_and] at h'
      exact hne h'
    · exact ⟨0, by omega, by simpa using h⟩

/-! ## C32 -/

omit [DecidableEq ρ] in
/-- C32: the empty references. -/
theorem C32_empty_reference (r : Bytes) :
    isEmptyReference r = true ↔ r = str "" ∨ r = str "null" ∨ r = str "nil" := by
  simp only [isEmptyReference, Bool.or_eq_true, decide_eq_true_eq, or_assoc]
  rfl

/-- C32: Resolve sets the property to the instance registered for the reference (nil if there is
none) and returns whether there is one and the reference is not empty; no other property and no other
instance changes. Without an instance to set the property on it returns false and changes nothing. -/
theorem C32_resolve (refs : References ρ) (h : Heap ρ) (c : ρ) (inst : Inst ρ)
    (name ref : Bytes) (hc : h.get? c = some inst) :
    let r := refs.resolve ⟨some c, name, ref⟩ h
    (r.1 = true ↔ (∃ p, refs.at ref = some p) ∧ isEmptyReference ref = false) ∧
    (∃ inst', r.2.get? c = some inst' ∧ inst'.properties.get? name = some (.reference (refs.at ref)) ∧
      (∀ other, other ≠ name → inst'.properties.get? other = inst.properties.get? other) ∧
      inst'.className = inst.className ∧ inst'.reference = inst.reference ∧
      inst'.isService = inst.isService ∧ inst'.children = inst.children) ∧
    (∀ d, d ≠ c → r.2.get? d = h.get? d) ∧
    refs.resolve ⟨none, name, ref⟩ h = (false, h) := by
  simp only [References.resolve, hc]
  refine ⟨?_, ⟨_, Map.get?_set_self _ _ _, Map.get?_set_self _ _ _, ?_, rfl, rfl, rfl, rfl⟩, ?_, trivial⟩
  · simp [Option.isSome_iff_exists]
  · intro other ho
    exact Map.get?_set_ne _ _ ho
  · intro d hd
    exact Map.get?_set_ne _ _ hd

example : (References.resolve [(str "R", some 0)] ⟨some 1, str "P", str "R"⟩ exRefs.heap).1 = true ∧
    (References.resolve [(str "R", some 0)] ⟨some 1, str "P", str "X"⟩ exRefs.heap).1 = false := by
  decide +kernel

end Props

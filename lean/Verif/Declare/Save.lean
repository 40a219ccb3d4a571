import Verif.Declare.Main
import Verif.Spec.Tree
/-!
# Evaluated declarations are trees
-/
namespace Declare
open Go Rbxfile Spec

/-- The declared instances, with their values. -/
theorem _root_.Spec.Declared.forest {h : Heap Nat} {ds : List Instance} {ps : List Nat} {l : List (Nat × Instance)}
    (hd : Declared h ds ps l) : ∃ m, Forest h ps m ∧ m.map Prod.fst = l.map Prod.fst := by
  induction hd with
  | nil => exact ⟨[], .nil, rfl⟩
  | @cons d ds p ps inst below rest hp h1 h2 h3 hb hr ih1 ih2 =>
    obtain ⟨m1, f1, e1⟩ := ih1
    obtain ⟨m2, f2, e2⟩ := ih2
    refine ⟨(p, inst) :: (m1 ++ m2), .cons hp f1 f2, ?_⟩
    simp only [List.map_cons, List.map_append, e1, e2]

/-- The class name and reference of a declared instance. -/
theorem _root_.Spec.Declared.mem {h : Heap Nat} {ds : List Instance} {ps : List Nat} {l : List (Nat × Instance)}
    (hd : Declared h ds ps l) : ∀ p d, (p, d) ∈ l → ∃ inst, h.get? p = some inst ∧ inst.className = d.className ∧
      inst.reference = d.reference ∧ inst.isService = false := by
  induction hd with
  | nil => nofun
  | @cons d ds p ps inst below rest hp h1 h2 h3 hb hr ih1 ih2 =>
    intro q e hm
    rcases List.mem_cons.1 hm with hm | hm
    · cases hm
      exact ⟨inst, hp, h1, h2, h3⟩
    · rcases List.mem_append.1 hm with hm | hm
      · exact ih1 q e hm
      · exact ih2 q e hm

/-- The properties of every instance have distinct names. -/
def PropsOk (h : Heap Nat) : Prop := ∀ p i, h.get? p = some i → i.properties.Ok

theorem setProp_ok {h : Heap Nat} (ho : PropsOk h) (p : Nat) (n : Bytes) (v : Option (Value Nat)) :
    PropsOk (setProp h p n v) := by
  unfold setProp
  cases hp : h.get? p with
  | none => exact ho
  | some i =>
    intro q j hj
    simp only [Map.get?_set] at hj
    split at hj
    · cases hj
      cases v with
      | some v => exact Map.ok_set (ho p i hp) _ _
      | none => exact Map.ok_erase (ho p i hp) _
    · exact ho q j hj

theorem assign_ok (C : Conv) (refs : References Nat) (p : Nat) : ∀ (qs : List Property) (h h' : Heap Nat),
    assign C refs p qs h = .ok h' → PropsOk h → PropsOk h'
  | [], h, h', e, ho => by cases e; exact ho
  | q :: qs, h, h', e, ho => by
    obtain ⟨v, -, e⟩ := Res.bind_eq_ok.1 e
    exact assign_ok C refs p qs _ _ e (setProp_ok ho p q.name v)

theorem assignAll_ok (C : Conv) (refs : References Nat) : ∀ (l : List (Nat × List Property)) (h h' : Heap Nat),
    assignAll C refs l h = .ok h' → PropsOk h → PropsOk h'
  | [], h, h', e, ho => by cases e; exact ho
  | (p, qs) :: l, h, h', e, ho => by
    obtain ⟨h1, e1, e⟩ := Res.bind_eq_ok.1 e
    exact assignAll_ok C refs l _ _ e (assign_ok C refs p qs _ _ e1 ho)

theorem buildRoot_metadata : ∀ (ds : List Primary) (root : Root Nat) (s : State), root.metadata.Ok →
    (buildRoot ds root s).1.metadata.Ok
  | [], root, s, h => h
  | .instance d :: ds, root, s, h => by rw [buildRoot]; exact buildRoot_metadata ds _ _ h
  | .metadata k v :: ds, root, s, h => by rw [buildRoot]; exact buildRoot_metadata ds _ _ (Map.ok_set h _ _)

theorem mistyped_notOptional {C : Conv} {t : Ty} {refs : References Nat} {v : List (GoVal Nat)} {w : Value Nat}
    (h : cases C t refs v = .ok (some w)) : w.type ≠ .optional := by
  unfold cases at h
  split at h <;> cases h <;> nofun

/-- A declared value is an Optional only if it is declared to be; it is the one without a type then. -/
theorem value_optional {C : Conv} {t : Byte} {refs : References Nat} {v : List (GoVal Nat)} {w : Option (Value Nat)}
    (h : value C t refs v = .ok w) :
    (t = Ty.optional.code → w = some (.optional .invalid none)) ∧ ∀ u o, w = some (.optional u o) → t = Ty.optional.code := by
  constructor
  · rintro rfl
    cases v with
    | nil => cases h; rfl
    | cons a l =>
      have h1 : assertValue (dty Ty.optional.code) a = none := by
        show assertValue .invalid a = none
        unfold assertValue
        split <;> first | rfl | contradiction
      have h2 : cases C (dty Ty.optional.code) refs (a :: l) = .ok none := rfl
      simp only [value, h1, h2] at h
      cases h; rfl
  · rintro u o rfl
    have hnew : ∀ {x : Value Nat}, newValue t = some x → x.type = .optional → t = Ty.optional.code := by
      intro x hx hxt
      rw [← newValue_type hx, hxt]
    cases v with
    | nil => exact hnew (Res.ok.inj h) rfl
    | cons a l =>
      simp only [value] at h
      split at h
      · rename_i w hw
        cases h
        have := (assert_type hw).2
        have hd : dty t ≠ .optional := by
          have : ∀ n < 256, dty (BitVec.ofNat 8 n) ≠ .optional := by decide +kernel
          have h := this t.toNat t.isLt
          rwa [BitVec.ofNat_toNat, BitVec.setWidth_eq] at h
        exact absurd this.symm hd
      · split at h
        · rename_i w hw
          cases h
          exact absurd rfl (mistyped_notOptional hw)
        · exact hnew (Res.ok.inj h) rfl
        · cases h
        · cases h

/-- There is a value for every type. -/
theorem newValue_some {u : Ty} (h : u ≠ .invalid) : (newValue u.code : Option (Value Nat)).isSome := by
  cases u <;> first | rfl | exact absurd rfl h

theorem value_some {C : Conv} {u : Ty} (hu : u ≠ .invalid) {refs : References Nat} {v : List (GoVal Nat)}
    {w : Option (Value Nat)} (h : value C u.code refs v = .ok w) : w.isSome := by
  cases v with
  | nil => cases h; exact newValue_some hu
  | cons a l =>
    simp only [value] at h
    split at h
    · cases h; rfl
    · split at h
      · cases h; rfl
      · cases h; exact newValue_some hu
      · cases h
      · cases h

/-- A declared reference leads to what its text is resolved to, or to the declared pointer. -/
theorem value_reference {C : Conv} {t : Byte} {refs : References Nat} {v : List (GoVal Nat)} {p : Nat}
    (h : value C t refs v = .ok (some (.reference (some p)))) :
    (∃ s, refs.at s = some p) ∨ .inst (some p) ∈ v ∨ .value (.reference (some p)) ∈ v := by
  have hnew : (newValue t : Option (Value Nat)) ≠ some (.reference (some p)) := by
    intro hx
    have hm := Map.mem_of_get? hx
    simp only [valueGenerators, List.mem_cons, Prod.mk.injEq, List.not_mem_nil, or_false, reduceCtorEq, and_false,
      false_or, Value.reference.injEq] at hm
  cases v with
  | nil => exact absurd (Res.ok.inj h) hnew
  | cons a l =>
    simp only [value] at h
    split at h
    · rename_i w hw
      cases h
      have := (assert_type hw).1
      exact .inr (.inr (by simp [this]))
    · split at h
      · rename_i w hw
        cases h
        unfold cases at hw
        split at hw <;> first
          | cases hw; done
          | (simp only [Res.ok.injEq, Option.some.injEq, Value.reference.injEq] at hw; exact .inl ⟨_, hw⟩)
          | (simp only [Res.ok.injEq, Option.some.injEq, Value.reference.injEq] at hw; subst hw; exact .inr (.inl (by simp_all)))
          | skip
      · exact absurd (Res.ok.inj h) hnew
      · cases h
      · cases h

end Declare

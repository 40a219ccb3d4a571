import Verif.Json.NoPanic
/-!
# Exactly which documents make the conversion from JSON interfaces panic
-/
namespace Json
open Go Rbxfile Spec

theorem Returns.of_bind {α β : Type} {x : Res α} {f : α → Res β} (h : Returns (x >>= f)) : Returns x ∧ ∃ a, Returns (f a) := by
  obtain ⟨b, hb⟩ := h
  obtain ⟨a, h1, h2⟩ := Res.bind_eq_ok.1 hb
  exact ⟨⟨a, h1⟩, a, b, h2⟩

theorem not_returns_panic {α : Type} : ¬ Returns (.panic : Res α) := nofun

theorem num_has {m : List (Bytes × JVal)} {k : String} (h : Returns (num m k)) : HasNum m k := by
  unfold num at h
  split at h
  · rename_i f hf; exact ⟨f, hf⟩
  · exact (not_returns_panic h).elim
theorem num32_has {m : List (Bytes × JVal)} {k : String} (h : Returns (num32 m k)) : HasNum m k := by
  unfold num32 at h
  split at h
  · rename_i f hf; exact num_has ⟨f, hf⟩
  · exact (not_returns_panic h).elim
theorem boolean_has {m : List (Bytes × JVal)} {k : String} (h : Returns (boolean m k)) : HasBool m k := by
  unfold boolean at h
  split at h
  · rename_i f hf; exact ⟨f, hf⟩
  · exact (not_returns_panic h).elim

theorem field_obj {m m' : List (Bytes × JVal)} {k : String} (h : field m k = .obj m') : Map.get? m (str k) = some (.obj m') := by
  unfold field at h
  cases hg : Map.get? m (str k) with
  | none => rw [hg] at h; cases h
  | some j => rw [hg] at h; exact congrArg some h

theorem udim_has {O : Overflow} {j : JVal} (h : Returns (toUDim O j)) :
    ∃ m, j = .obj m ∧ ∀ k ∈ ["scale", "offset"], HasNum m k := by
  unfold toUDim at h
  split at h
  · obtain ⟨h1, _, h⟩ := h.of_bind
    obtain ⟨h2, -⟩ := h.of_bind
    exact ⟨_, rfl, by simpa using ⟨num32_has h1, num_has h2⟩⟩
  · exact (not_returns_panic h).elim
theorem vector3_has {j : JVal} (h : Returns (toVector3 j)) : ∃ m, j = .obj m ∧ ∀ k ∈ ["x", "y", "z"], HasNum m k := by
  unfold toVector3 at h
  split at h
  · obtain ⟨h1, _, h⟩ := h.of_bind
    obtain ⟨h2, _, h⟩ := h.of_bind
    obtain ⟨h3, -⟩ := h.of_bind
    exact ⟨_, rfl, by simpa using ⟨num32_has h1, num32_has h2, num32_has h3⟩⟩
  · exact (not_returns_panic h).elim
theorem vector2_has {j : JVal} (h : Returns (toVector2 j)) : ∃ m, j = .obj m ∧ ∀ k ∈ ["x", "y"], HasNum m k := by
  unfold toVector2 at h
  split at h
  · obtain ⟨h1, _, h⟩ := h.of_bind
    obtain ⟨h2, -⟩ := h.of_bind
    exact ⟨_, rfl, by simpa using ⟨num32_has h1, num32_has h2⟩⟩
  · exact (not_returns_panic h).elim
theorem color3_has {j : JVal} (h : Returns (toColor3 j)) : ∃ m, j = .obj m ∧ ∀ k ∈ ["r", "g", "b"], HasNum m k := by
  unfold toColor3 at h
  split at h
  · obtain ⟨h1, _, h⟩ := h.of_bind
    obtain ⟨h2, _, h⟩ := h.of_bind
    obtain ⟨h3, -⟩ := h.of_bind
    exact ⟨_, rfl, by simpa using ⟨num32_has h1, num32_has h2, num32_has h3⟩⟩
  · exact (not_returns_panic h).elim

/-- What holds of an object holds of the object under a key. -/
theorem hasNums_of {m : List (Bytes × JVal)} {k : String} {ks : List String}
    (h : ∃ m', field m k = .obj m' ∧ ∀ k' ∈ ks, HasNum m' k') : HasNums m k ks := by
  obtain ⟨m', h1, h2⟩ := h
  exact ⟨m', field_obj h1, h2⟩

theorem floats_has : ∀ {l : List JVal}, Returns (toFloats l) → ∀ j ∈ l, ∃ f, j = .num f
  | [], _ => by simp
  | j :: l, h => by
    cases j with
    | num f =>
      obtain ⟨h, -⟩ := Returns.of_bind h
      have := floats_has h
      simpa using this
    | _ => exact (not_returns_panic h).elim

theorem numberKeypoints_has : ∀ {l : List JVal}, Returns (toNumberKeypoints l) →
    ∀ m, .obj m ∈ l → ∀ k ∈ ["time", "value", "envelope"], HasNum m k
  | [], _ => by simp
  | j :: l, h => by
    cases j with
    | obj m =>
      obtain ⟨h1, _, h⟩ := Returns.of_bind h
      obtain ⟨h2, _, h⟩ := h.of_bind
      obtain ⟨h3, _, h⟩ := h.of_bind
      obtain ⟨h4, -⟩ := h.of_bind
      intro m' hm
      rcases List.mem_cons.1 hm with e | hm
      · cases e
        simpa using ⟨num32_has h1, num32_has h2, num32_has h3⟩
      · exact numberKeypoints_has h4 m' hm
    | _ =>
      obtain ⟨h4, -⟩ := Returns.of_bind h
      intro m' hm
      exact numberKeypoints_has h4 m' (by simpa using hm)

theorem colorKeypoints_has : ∀ {l : List JVal}, Returns (toColorKeypoints l) →
    ∀ m, .obj m ∈ l → HasNum m "time" ∧ HasNums m "value" ["r", "g", "b"] ∧ HasNum m "envelope"
  | [], _ => by simp
  | j :: l, h => by
    cases j with
    | obj m =>
      obtain ⟨h1, _, h⟩ := Returns.of_bind h
      obtain ⟨h2, _, h⟩ := h.of_bind
      obtain ⟨h3, _, h⟩ := h.of_bind
      obtain ⟨h4, -⟩ := h.of_bind
      intro m' hm
      rcases List.mem_cons.1 hm with e | hm
      · cases e
        exact ⟨num32_has h1, hasNums_of (color3_has h2), num32_has h3⟩
      · exact colorKeypoints_has h4 m' hm
    | _ =>
      obtain ⟨h4, -⟩ := Returns.of_bind h
      intro m' hm
      exact colorKeypoints_has h4 m' (by simpa using hm)

/-- A value that is converted has the shape of its type. -/
theorem baseFrom_shaped {ρ : Type} {O : Overflow} {t : Ty} {j : JVal} (ht : t ≠ .optional)
    (h : Returns (baseFrom (ρ := ρ) O t j)) : Shaped t j := by
  unfold baseFrom at h
  split at h <;> try trivial
  · obtain ⟨h, -⟩ := h.of_bind
    obtain ⟨m, e, hm⟩ := udim_has h
    cases e
    exact ⟨hm _ (by simp), hm _ (by simp)⟩
  · obtain ⟨h1, _, h⟩ := h.of_bind
    obtain ⟨h2, -⟩ := h.of_bind
    exact ⟨hasNums_of (udim_has h1), hasNums_of (udim_has h2)⟩
  · obtain ⟨h1, _, h⟩ := h.of_bind
    obtain ⟨h2, -⟩ := h.of_bind
    exact ⟨hasNums_of (vector3_has h1), hasNums_of (vector3_has h2)⟩
  · obtain ⟨h1, _, h⟩ := h.of_bind
    obtain ⟨h2, _, h⟩ := h.of_bind
    obtain ⟨h3, _, h⟩ := h.of_bind
    obtain ⟨h4, _, h⟩ := h.of_bind
    obtain ⟨h5, _, h⟩ := h.of_bind
    obtain ⟨h6, -⟩ := h.of_bind
    show ∀ k ∈ _, _
    simpa using ⟨boolean_has h1, boolean_has h2, boolean_has h3, boolean_has h4, boolean_has h5, boolean_has h6⟩
  · obtain ⟨h1, _, h⟩ := h.of_bind
    obtain ⟨h2, _, h⟩ := h.of_bind
    obtain ⟨h3, -⟩ := h.of_bind
    show ∀ k ∈ _, _
    simpa using ⟨boolean_has h1, boolean_has h2, boolean_has h3⟩
  · obtain ⟨h, -⟩ := h.of_bind
    obtain ⟨m, e, hm⟩ := color3_has h
    cases e
    exact hm
  · obtain ⟨h, -⟩ := h.of_bind
    obtain ⟨m, e, hm⟩ := vector2_has h
    cases e
    exact hm
  · obtain ⟨h, -⟩ := h.of_bind
    obtain ⟨m, e, hm⟩ := vector3_has h
    cases e
    exact hm
  · obtain ⟨h1, _, h⟩ := h.of_bind
    refine ⟨hasNums_of (vector3_has h1), ?_⟩
    intro l hl
    rw [hl] at h
    exact floats_has (Returns.of_bind h).1
  · obtain ⟨h1, _, h⟩ := h.of_bind
    obtain ⟨h2, _, h⟩ := h.of_bind
    obtain ⟨h3, -⟩ := h.of_bind
    show ∀ k ∈ _, _
    simpa using ⟨num_has h1, num_has h2, num_has h3⟩
  · obtain ⟨h1, _, h⟩ := h.of_bind
    obtain ⟨h2, -⟩ := h.of_bind
    show ∀ k ∈ _, _
    simpa using ⟨num_has h1, num_has h2⟩
  · exact numberKeypoints_has (h.of_bind).1
  · exact colorKeypoints_has (h.of_bind).1
  · obtain ⟨h1, _, h⟩ := h.of_bind
    obtain ⟨h2, -⟩ := h.of_bind
    show ∀ k ∈ _, _
    simpa using ⟨num32_has h1, num32_has h2⟩
  · obtain ⟨h1, _, h⟩ := h.of_bind
    obtain ⟨h2, -⟩ := h.of_bind
    exact ⟨hasNums_of (vector2_has h1), hasNums_of (vector2_has h2)⟩
  · obtain ⟨h1, _, h⟩ := h.of_bind
    obtain ⟨h2, _, h⟩ := h.of_bind
    obtain ⟨h3, _, h⟩ := h.of_bind
    obtain ⟨h4, _, h⟩ := h.of_bind
    obtain ⟨h5, _, h⟩ := h.of_bind
    obtain ⟨h6, -⟩ := h.of_bind
    refine ⟨boolean_has h1, ?_⟩
    simpa using ⟨num32_has h2, num32_has h3, num32_has h4, num32_has h5, num32_has h6⟩
  · obtain ⟨h1, _, h⟩ := h.of_bind
    obtain ⟨h2, _, h⟩ := h.of_bind
    obtain ⟨h3, -⟩ := h.of_bind
    show ∀ k ∈ _, _
    simpa using ⟨num_has h1, num_has h2, num_has h3⟩
  · unfold Shaped
    split <;> first | trivial | simp_all

/-- The result, if there is one, is a value. -/
def IsSome {α : Type} (x : Res (Option α)) : Prop := ∀ o, x = .ok o → o.isSome

theorem IsSome.pure {α : Type} (a : α) : IsSome (pure (some a)) := by
  intro o h; cases h; rfl
theorem IsSome.bind {α β : Type} {x : Res β} {f : β → Res (Option α)} (hf : ∀ a, IsSome (f a)) : IsSome (x >>= f) := by
  intro o h
  obtain ⟨a, -, h⟩ := Res.bind_eq_ok.1 h
  exact hf a o h

/-- A value that is converted is nil unless the interface is of the kind of its type. -/
theorem baseFrom_kind {ρ : Type} {O : Overflow} {t : Ty} {j : JVal} (ht : t ≠ .optional) {o : Option (Value ρ)}
    (h : baseFrom O t j = .ok o) : o.isSome ↔ Kind t j := by
  unfold baseFrom at h
  split at h
  all_goals try (cases h; simp only [Kind, Option.isSome_some]; done)
  all_goals try
    refine iff_of_true ?_ trivial
    revert o
    show IsSome _
    repeat' first
      | exact IsSome.pure _
      | refine IsSome.bind fun _ => ?_
      | split
  cases h
  simp only [Option.isSome_none, Bool.false_eq_true, false_iff]
  unfold Kind
  split <;> first | exact id | simp_all

section
variable {ρ : Type} (O : Overflow) (it : Iter)

/-- The type with a name. -/
abbrev typeNamed (s : Bytes) : Ty := tyOf (typeFromString it s)

theorem valueFrom_plain {t : Ty} (ht : t ≠ .optional) (j : JVal) : valueFrom (ρ := ρ) O it t j = baseFrom O t j := by
  rw [valueFrom.eq_def]
  split <;> simp [ht]

theorem valueFrom_kind {t : Ty} {j : JVal} {o : Option (Value ρ)} (h : valueFrom O it t j = .ok o) :
    o.isSome ↔ Kind t j := by
  by_cases ht : t = .optional
  · subst ht
    rw [valueFrom.eq_def] at h
    split at h
    · rename_i m
      simp only [if_true] at h
      refine iff_of_true ?_ trivial
      split at h
      · generalize tyOf _ = t at h
        clear * - h
        induction m with
        | nil => rw [optionFrom] at h; cases h; rfl
        | cons x m ih =>
          obtain ⟨k, v⟩ := x
          rw [optionFrom.eq_def] at h
          simp only at h
          split at h
          · split at h
            · cases h; rfl
            · split at h
              · cases h; rfl
              · cases h
          · exact ih h
      · cases h
    · rename_i hn
      simp only [if_true] at h
      cases h
      simp only [Option.isSome_none, Bool.false_eq_true, false_iff]
      unfold Kind
      split <;> first | exact id | simp_all
  · rw [valueFrom_plain O it ht] at h
    exact baseFrom_kind ht h

theorem plain_iff {t : Ty} (ht : t ≠ .optional) (j : JVal) :
    Returns (baseFrom (ρ := ρ) O t j) ↔ WellShaped (typeNamed it) t j :=
  ⟨fun h => .plain ht (baseFrom_shaped ht h), fun h => by
    cases h with
    | plain _ h => exact baseFrom_returns O h
    | _ => exact absurd rfl ht⟩

theorem other_iff (t : Ty) (j : JVal) (hj : ∀ m, j ≠ .obj m) :
    Returns (valueFrom (ρ := ρ) O it t j) ↔ WellShaped (typeNamed it) t j := by
  by_cases ht : t = .optional
  · subst ht
    refine iff_of_true ?_ (.none hj)
    cases j with
    | obj m => exact absurd rfl (hj m)
    | _ => rw [valueFrom.eq_def]; exact .ok _
  · rw [valueFrom_plain O it ht]
    exact plain_iff O it ht j

mutual
/-- A value is converted just if it is well shaped. -/
theorem valueFrom_iff : ∀ (j : JVal) (t : Ty), Returns (valueFrom (ρ := ρ) O it t j) ↔ WellShaped (typeNamed it) t j
  | .obj m, t => by
    by_cases ht : t = .optional
    · subst ht
      rw [valueFrom]
      simp only [if_true]
      constructor
      · intro h
        split at h
        · rename_i s hs
          rcases (optionFrom_iff m _).1 h with h | h | ⟨v, h1, h2, h3⟩
          · exact .absent hs h
          · exact .null hs h
          · exact .value hs h1 h2 h3
        · exact (not_returns_panic h).elim
      · intro h
        cases h with
        | plain ht => exact absurd rfl ht
        | none h => exact absurd rfl (h m)
        | absent h1 h2 => simp only [h1]; exact (optionFrom_iff m _).2 (.inl h2)
        | null h1 h2 => simp only [h1]; exact (optionFrom_iff m _).2 (.inr (.inl h2))
        | value h1 h2 h3 h4 => simp only [h1]; exact (optionFrom_iff m _).2 (.inr (.inr ⟨_, h2, h3, h4⟩))
    · rw [valueFrom_plain O it ht]
      exact plain_iff O it ht _
  | .null, t => other_iff O it t _ nofun
  | .bool _, t => other_iff O it t _ nofun
  | .num _, t => other_iff O it t _ nofun
  | .str _, t => other_iff O it t _ nofun
  | .arr _, t => other_iff O it t _ nofun
  | .type _, t => other_iff O it t _ nofun
theorem optionFrom_iff : ∀ (m : List (Bytes × JVal)) (t : Ty), Returns (optionFrom (ρ := ρ) O it t m) ↔
    Map.get? m (str "value") = none ∨ Map.get? m (str "value") = some .null ∨
    ∃ v, Map.get? m (str "value") = some v ∧ Kind t v ∧ WellShaped (typeNamed it) t v
  | [], t => by rw [optionFrom]; exact iff_of_true (.ok _) (.inl rfl)
  | (k, v) :: m, t => by
    rw [optionFrom.eq_def]
    by_cases hk : k = str "value"
    · simp only [hk, if_true, Map.get?]
      have ih := valueFrom_iff v t
      split
      · exact iff_of_true (.ok _) (.inr (.inl rfl))
      · rename_i hn
        have hn' : v ≠ .null := hn
        constructor
        · intro h
          split at h
          · rename_i x hx
            exact .inr (.inr ⟨v, rfl, (valueFrom_kind O it hx).1 rfl, ih.1 ⟨_, hx⟩⟩)
          · exact (not_returns_panic h).elim
        · rintro (h | h | ⟨v', h, h1, h2⟩)
          · cases h
          · cases h; exact absurd rfl hn'
          · cases h
            obtain ⟨o, ho⟩ := ih.2 h2
            have := (valueFrom_kind O it ho).2 h1
            obtain ⟨x, rfl⟩ := Option.isSome_iff_exists.1 this
            rw [ho]
            exact .ok _
    · simp only [hk, if_false, Map.get?]
      exact optionFrom_iff m t
end

theorem propFrom_iff (j : JVal) : Returns (propFrom O it j) ↔
    ∀ pm, j = .obj pm → ∀ t v, Map.get? pm (str "type") = some (.str t) → Map.get? pm (str "value") = some v →
      WellShaped (typeNamed it) (typeNamed it t) v := by
  cases j with
  | obj pm =>
    unfold propFrom
    split
    · rename_i t v h1 h2
      constructor
      · rintro h _ ⟨⟩ t' v' h1' h2'
        have e1 := h1.symm.trans h1'
        have e2 := h2.symm.trans h2'
        cases e1
        cases e2
        refine (valueFrom_iff (ρ := Nat) O it _ _).1 ?_
        simp only at h
        split at h
        · rename_i hv; exact ⟨_, hv⟩
        · rename_i hv; exact ⟨_, hv⟩
        · exact absurd h nofun
        · exact absurd h nofun
      · intro h
        obtain ⟨o, ho⟩ := (valueFrom_iff (ρ := Nat) O it _ _).2 (h pm rfl t v h1 h2)
        simp only [ho]
        cases o with
        | none => exact .ok _
        | some v =>
          simp only
          split
          · rename_i hr
            have hr' : typeNamed it t = .reference := hr
            rw [hr'] at ho
            obtain ⟨s, rfl⟩ := valueFrom_reference O it ho
            exact .ok _
          · exact .ok _
    · rename_i hn
      refine iff_of_true (.ok _) ?_
      rintro _ ⟨⟩ t v h1 h2
      exact (hn t v h1 h2).elim
  | _ => exact iff_of_true (.ok _) nofun

theorem propsFrom_iff {p : Nat} : ∀ (ps : List (Bytes × JVal)) (s : JState),
    Returns (propsFrom O it p ps s) ↔ ∀ x ∈ ps, Returns (propFrom O it x.2)
  | [], s => iff_of_true (.ok _) (by simp)
  | (n, j) :: ps, s => by
    rw [propsFrom]
    have ih := propsFrom_iff (p := p) ps
    simp only [List.mem_cons, forall_eq_or_imp]
    split <;> rename_i h
    all_goals first
      | (rw [h, ih]; exact ⟨fun x => ⟨.ok _, x⟩, fun x => x.2⟩)
      | (rw [h]; exact ⟨fun x => absurd x nofun, fun x => absurd x.1 nofun⟩)

theorem childrenFrom_iff (l : List JVal) (s : JState) : Returns (childrenFrom O it l s) ↔ ∀ c ∈ l, ¬ IsInstance c := by
  refine ⟨?_, fun h => childrenFrom_returns h s⟩
  rintro ⟨s', h⟩ c hc ⟨m, cls, rfl, hm⟩
  rw [childrenFrom_panic l ⟨m, cls, hc, hm⟩] at h
  cases h

theorem childrenField_iff : ∀ (m : List (Bytes × JVal)) (s : JState), Returns (childrenField O it m s) ↔
    ∀ l, Map.get? m (str "children") = some (.arr l) → ∀ c ∈ l, ¬ IsInstance c
  | [], s => by rw [childrenField]; exact iff_of_true (.ok _) nofun
  | (k, v) :: m, s => by
    rw [childrenField.eq_def]
    by_cases hk : k = str "children"
    · simp only [hk, if_true, Map.get?]
      split
      · rename_i l
        rw [childrenFrom_iff]
        simp
      · rename_i hn
        refine iff_of_true (.ok _) ?_
        rintro l ⟨⟩
        exact absurd rfl (hn l)
    · simp only [hk, if_false, Map.get?]
      exact childrenField_iff m s

theorem fill_iff (m : List (Bytes × JVal)) (p : Nat) (cls : Bytes) (s : JState) : Returns (fill O it (.obj m) p cls s) ↔
    ∀ ps, Map.get? m (str "properties") = some (.obj ps) → ∀ x ∈ ps, Returns (propFrom O it x.2) := by
  unfold fill
  simp only
  split
  · rename_i ps hps
    have hps' : Map.get? m (str "properties") = some (.obj ps) := hps
    rw [propsFrom_iff, hps']
    constructor
    · rintro h _ ⟨⟩ x hx
      exact h x ((it.perm _ _).mem_iff.2 hx)
    · intro h x hx
      exact h ps rfl x ((it.perm _ _).mem_iff.1 hx)
  · rename_i hn
    refine iff_of_true (.ok _) ?_
    intro ps hps
    exact (hn ps hps).elim

/-- An element of `instances` is converted just if it is well shaped. -/
theorem instFrom_iff (j : JVal) (s : JState) : Returns (instFrom O it j s) ↔ WellShapedInstance (typeNamed it) j := by
  cases j with
  | obj m =>
    rw [instFrom]
    split
    · rename_i cls hc
      constructor
      · intro h
        obtain ⟨h1, _, h⟩ := h.of_bind
        obtain ⟨h2, -⟩ := h.of_bind
        rintro _ cls' ⟨⟩ -
        refine ⟨(childrenField_iff O it m _).1 h2, ?_⟩
        intro ps hps n pm hx
        exact (propFrom_iff O it _).1 ((fill_iff O it m _ _ _).1 h1 ps hps _ hx) pm rfl
      · intro h
        obtain ⟨h1, h2⟩ := h m cls rfl hc
        refine .bind ((fill_iff O it m _ _ _).2 ?_) fun _ => .bind ((childrenField_iff O it m _).2 h1) fun _ => .ok _
        rintro ps hps ⟨n, pj⟩ hx
        refine (propFrom_iff O it _).2 ?_
        rintro pm e
        cases e
        exact h2 ps hps n pm hx
    · rename_i hn
      refine iff_of_true (.ok _) ?_
      rintro _ cls ⟨⟩ h
      exact (hn cls h).elim
  | _ => rw [instFrom.eq_def]; exact iff_of_true (.ok _) nofun

theorem listFrom_iff : ∀ (l : List JVal) (s : JState), Returns (listFrom O it l s) ↔
    ∀ j ∈ l, WellShapedInstance (typeNamed it) j
  | [], s => iff_of_true (.ok _) (by simp)
  | j :: l, s => by
    rw [listFrom]
    simp only [List.mem_cons, forall_eq_or_imp]
    constructor
    · intro h
      obtain ⟨h1, _, h⟩ := h.of_bind
      obtain ⟨h2, -⟩ := h.of_bind
      exact ⟨(instFrom_iff O it j s).1 h1, (listFrom_iff l _).1 h2⟩
    · rintro ⟨h1, h2⟩
      exact .bind ((instFrom_iff O it j s).2 h1) fun _ => .bind ((listFrom_iff l _).2 h2) fun _ => .ok _

end

end Json

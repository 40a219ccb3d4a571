import Verif.Json.Form
import Verif.Json.PanicsExact
import Mathlib.Tactic.CasesM
/-!
# What the JSON form of a value is read as
-/
namespace Json
open Go Rbxfile Spec JsonForm

theorem num_iff {m : List (Bytes × JVal)} {k : String} {f : F64} : num m k = .ok f ↔ Number m k f := by
  unfold num Number
  split
  · rename_i g hg; rw [hg]; simp
  · rename_i hn
    exact ⟨nofun, fun h => absurd h (hn f)⟩

theorem num32_iff {m : List (Bytes × JVal)} {k : String} {f : F32} : num32 m k = .ok f ↔ Real m k f := by
  unfold num32 Real
  constructor
  · intro h
    split at h
    · rename_i g hg
      cases h
      exact ⟨g, num_iff.1 hg, rfl⟩
    · cases h
  · rintro ⟨x, hx, rfl⟩
    rw [num_iff.2 hx]

theorem boolean_iff {m : List (Bytes × JVal)} {k : String} {b : Bool} : boolean m k = .ok b ↔ Truth m k b := by
  unfold boolean Truth
  split
  · rename_i g hg; rw [hg]; simp
  · rename_i hn
    exact ⟨nofun, fun h => absurd h (hn b)⟩

theorem toUDim_iff {O : Overflow} {j : JVal} {u : UDim} : toUDim O j = .ok u ↔ Obj j (UDimIs O u) := by
  unfold toUDim Obj UDimIs Signed
  split
  · simp only [Res.bind_eq_ok, Res.pure_eq, Res.ok.injEq, num32_iff, num_iff]
    constructor
    · rintro ⟨s, hs, o, ho, rfl⟩; exact ⟨_, rfl, hs, o, ho, rfl⟩
    · rintro ⟨_, e, hs, o, ho, e2⟩; cases e; exact ⟨_, hs, o, ho, by rw [← e2]⟩
  · rename_i hn
    exact ⟨nofun, fun ⟨m, e, _⟩ => absurd e (hn m)⟩

theorem toVector3_iff {j : JVal} {v : Vector3} : toVector3 j = .ok v ↔ Obj j (Vector3Is v) := by
  unfold toVector3 Obj Vector3Is
  split
  · simp only [Res.bind_eq_ok, Res.pure_eq, Res.ok.injEq, num32_iff]
    constructor
    · rintro ⟨x, hx, y, hy, z, hz, rfl⟩; exact ⟨_, rfl, hx, hy, hz⟩
    · rintro ⟨_, e, hx, hy, hz⟩; cases e; exact ⟨_, hx, _, hy, _, hz, rfl⟩
  · rename_i hn
    exact ⟨nofun, fun ⟨m, e, _⟩ => absurd e (hn m)⟩

theorem toVector2_iff {j : JVal} {v : Vector2} : toVector2 j = .ok v ↔ Obj j (Vector2Is v) := by
  unfold toVector2 Obj Vector2Is
  split
  · simp only [Res.bind_eq_ok, Res.pure_eq, Res.ok.injEq, num32_iff]
    constructor
    · rintro ⟨x, hx, y, hy, rfl⟩; exact ⟨_, rfl, hx, hy⟩
    · rintro ⟨_, e, hx, hy⟩; cases e; exact ⟨_, hx, _, hy, rfl⟩
  · rename_i hn
    exact ⟨nofun, fun ⟨m, e, _⟩ => absurd e (hn m)⟩

theorem toColor3_iff {j : JVal} {v : Color3} : toColor3 j = .ok v ↔ Obj j (ColorIs v) := by
  unfold toColor3 Obj ColorIs
  split
  · simp only [Res.bind_eq_ok, Res.pure_eq, Res.ok.injEq, num32_iff]
    constructor
    · rintro ⟨x, hx, y, hy, z, hz, rfl⟩; exact ⟨_, rfl, hx, hy, hz⟩
    · rintro ⟨_, e, hx, hy, hz⟩; cases e; exact ⟨_, hx, _, hy, _, hz, rfl⟩
  · rename_i hn
    exact ⟨nofun, fun ⟨m, e, _⟩ => absurd e (hn m)⟩

theorem obj_field {m : List (Bytes × JVal)} {k : String} {P : List (Bytes × JVal) → Prop} : Obj (field m k) P ↔ Part m k P :=
  ⟨fun ⟨m', e, h⟩ => ⟨m', field_obj e, h⟩, fun ⟨m', e, h⟩ => ⟨m', by rw [field, e]; rfl, h⟩⟩

theorem obj_obj {m : List (Bytes × JVal)} {P : List (Bytes × JVal) → Prop} : Obj (.obj m) P ↔ P m :=
  ⟨fun ⟨_, e, h⟩ => by cases e; exact h, fun h => ⟨_, rfl, h⟩⟩

theorem toFloats_iff : ∀ {l : List JVal} {fs : List F32}, toFloats l = .ok fs ↔ ∃ xs : List F64, l = xs.map .num ∧ fs = xs.map f64to32
  | [], fs => by
    simp only [toFloats, Res.ok.injEq]
    constructor
    · rintro rfl; exact ⟨[], rfl, rfl⟩
    · rintro ⟨xs, h, rfl⟩
      cases xs <;> simp at h ⊢
  | j :: l, fs => by
    constructor
    · intro h
      cases j with
      | num f =>
        simp only [toFloats, Res.bind_eq_ok, Res.pure_eq, Res.ok.injEq] at h
        obtain ⟨gs, h1, rfl⟩ := h
        obtain ⟨xs, rfl, rfl⟩ := toFloats_iff.1 h1
        exact ⟨f :: xs, rfl, rfl⟩
      | _ => cases h
    · rintro ⟨xs, h, rfl⟩
      cases xs with
      | nil => cases h
      | cons x xs =>
        cases h
        simp only [toFloats, Res.bind_eq_ok, Res.pure_eq, Res.ok.injEq]
        exact ⟨_, toFloats_iff.2 ⟨xs, rfl, rfl⟩, rfl⟩

theorem matrixOf_iff {fs : List F32} (hl : fs.length ≤ 9) {r : Matrix} :
    matrixOf fs = r ↔ [r.m0, r.m1, r.m2, r.m3, r.m4, r.m5, r.m6, r.m7, r.m8] = (fs ++ List.replicate 9 0#32).take 9 := by
  have key : (fs ++ List.replicate 9 0#32).take 9 = [fs.getD 0 0, fs.getD 1 0, fs.getD 2 0, fs.getD 3 0, fs.getD 4 0, fs.getD 5 0,
      fs.getD 6 0, fs.getD 7 0, fs.getD 8 0] := by
    rcases fs with _ | ⟨a, _ | ⟨b, _ | ⟨c, _ | ⟨d, _ | ⟨e, _ | ⟨f, _ | ⟨g, _ | ⟨h, _ | ⟨i, _ | ⟨j, fs⟩⟩⟩⟩⟩⟩⟩⟩⟩⟩
    all_goals first | rfl | (simp at hl)
  rw [key, matrixOf]
  cases r
  simp only [Matrix.mk.injEq, List.cons.injEq, and_true]
  constructor <;> (rintro ⟨rfl, rfl, rfl, rfl, rfl, rfl, rfl, rfl, rfl⟩; simp)

theorem numberKeypoints_iff : ∀ {l : List JVal} {ks : List NumberKeypoint},
    toNumberKeypoints l = .ok ks ↔ List.Forall₂ NumberKeypointIs l ks
  | [], ks => by
    simp only [toNumberKeypoints, Res.ok.injEq, List.forall₂_nil_left_iff]
    exact eq_comm
  | j :: l, ks => by
    have ih := fun ks => numberKeypoints_iff (l := l) (ks := ks)
    simp only [List.forall₂_cons_left_iff]
    by_cases ho : ∃ m, j = .obj m
    · obtain ⟨m, rfl⟩ := ho
      simp only [toNumberKeypoints, Res.bind_eq_ok, Res.pure_eq, Res.ok.injEq, num32_iff, ih]
      constructor
      · rintro ⟨t, ht, v, hv, e, he, ks', hk, rfl⟩
        exact ⟨⟨t, v, e⟩, ks', .inl ⟨m, rfl, ht, hv, he⟩, hk, rfl⟩
      · rintro ⟨k, ks', ⟨m', e, ht, hv, he⟩ | ⟨h, -⟩, hk, rfl⟩
        · cases e; exact ⟨_, ht, _, hv, _, he, ks', hk, rfl⟩
        · exact absurd rfl (h m)
    · have hn : ∀ m, j ≠ .obj m := fun m e => ho ⟨m, e⟩
      have : toNumberKeypoints (j :: l) = (toNumberKeypoints l >>= fun ks => pure (⟨0, 0, 0⟩ :: ks)) := by
        cases j <;> first | rfl | exact absurd rfl (hn _)
      simp only [this, Res.bind_eq_ok, Res.pure_eq, Res.ok.injEq, ih]
      constructor
      · rintro ⟨ks', hk, rfl⟩; exact ⟨_, ks', .inr ⟨hn, rfl⟩, hk, rfl⟩
      · rintro ⟨k, ks', ⟨m, e, -⟩ | ⟨-, rfl⟩, hk, rfl⟩
        · exact absurd e (hn m)
        · exact ⟨ks', hk, rfl⟩

theorem colorKeypoints_iff : ∀ {l : List JVal} {ks : List ColorKeypoint},
    toColorKeypoints l = .ok ks ↔ List.Forall₂ ColorKeypointIs l ks
  | [], ks => by
    simp only [toColorKeypoints, Res.ok.injEq, List.forall₂_nil_left_iff]
    exact eq_comm
  | j :: l, ks => by
    have ih := fun ks => colorKeypoints_iff (l := l) (ks := ks)
    simp only [List.forall₂_cons_left_iff]
    by_cases ho : ∃ m, j = .obj m
    · obtain ⟨m, rfl⟩ := ho
      simp only [toColorKeypoints, Res.bind_eq_ok, Res.pure_eq, Res.ok.injEq, num32_iff, toColor3_iff, obj_field, ih]
      constructor
      · rintro ⟨t, ht, v, hv, e, he, ks', hk, rfl⟩
        exact ⟨⟨t, v, e⟩, ks', .inl ⟨m, rfl, ht, hv, he⟩, hk, rfl⟩
      · rintro ⟨k, ks', ⟨m', e, ht, hv, he⟩ | ⟨h, -⟩, hk, rfl⟩
        · cases e; exact ⟨_, ht, _, hv, _, he, ks', hk, rfl⟩
        · exact absurd rfl (h m)
    · have hn : ∀ m, j ≠ .obj m := fun m e => ho ⟨m, e⟩
      have : toColorKeypoints (j :: l) = (toColorKeypoints l >>= fun ks => pure (⟨0, ⟨0, 0, 0⟩, 0⟩ :: ks)) := by
        cases j <;> first | rfl | exact absurd rfl (hn _)
      simp only [this, Res.bind_eq_ok, Res.pure_eq, Res.ok.injEq, ih]
      constructor
      · rintro ⟨ks', hk, rfl⟩; exact ⟨_, ks', .inr ⟨hn, rfl⟩, hk, rfl⟩
      · rintro ⟨k, ks', ⟨m, e, -⟩ | ⟨-, rfl⟩, hk, rfl⟩
        · exact absurd e (hn m)
        · exact ⟨ks', hk, rfl⟩

theorem binary_getD (x : Bytes) : Binary (.str x) ((b64Decode x).getD x) := by
  refine ⟨x, rfl, ?_⟩
  cases h : b64Decode x <;> simp

theorem binary_inv {j : JVal} {s : Bytes} (h : Binary j s) : ∃ x, j = .str x ∧ s = (b64Decode x).getD x := by
  obtain ⟨x, rfl, h | ⟨h, rfl⟩⟩ := h <;> exact ⟨_, rfl, by rw [h]; rfl⟩

theorem typeOf_name (t : Ty) : typeOf (str (typeName t)) = t := by cases t <;> decide

theorem typeOf_other {s : Bytes} (h : ∀ t ∈ types, str (typeName t) ≠ s) : typeOf s = .invalid := by
  unfold typeOf
  rw [List.find?_eq_none.2 fun t ht => by simpa using h t ht]
  rfl

/-- Whatever the order of iteration, the type with a name is found. -/
theorem typeNamed_eq (it : Iter) : typeNamed it = typeOf := by
  funext s
  unfold typeNamed typeFromString
  by_cases hs : ∃ t ∈ types, str (typeName t) = s
  · obtain ⟨t, ht, rfl⟩ := hs
    rw [typeOf_name]
    split
    · rename_i e he
      have h1 := (it.perm _ _).mem_iff.1 (List.mem_of_find?_eq_some he)
      have h2 := List.find?_some he
      simp only [beq_iff_eq] at h2
      have h3 : (t.code, str (typeName t)) ∈ typeStrings := by
        clear h1 h2 he
        revert t; decide
      rw [Props.typeStrings_inj e h1 _ h3 h2]
      cases t <;> rfl
    · rename_i hn
      have h3 : (t.code, str (typeName t)) ∈ typeStrings := by
        clear hn
        revert t; decide
      have := List.find?_eq_none.1 hn _ ((it.perm _ _).mem_iff.2 h3)
      simp at this
  · rw [typeOf_other fun t ht e => hs ⟨t, ht, e⟩]
    split
    · rename_i e he
      exfalso
      have h1 := (it.perm _ _).mem_iff.1 (List.mem_of_find?_eq_some he)
      have h2 := List.find?_some he
      simp only [beq_iff_eq] at h2
      refine hs ?_
      have h3 : ∀ e ∈ typeStrings, ∃ t ∈ types, str (typeName t) = e.2 := by decide
      obtain ⟨t, ht, h4⟩ := h3 e h1
      exact ⟨t, ht, h4.trans h2⟩
    · rfl

section
variable {ρ : Type} (O : Overflow)

theorem plain_of_base {t : Ty} {j : JVal} {v : Value ρ} (h : baseFrom O t j = .ok (some v)) : Plain O t j v := by
  unfold baseFrom at h
  split at h
  case h_19 m =>
    simp only [Res.bind_eq_ok, toVector3_iff, obj_field] at h
    obtain ⟨p, hp, h⟩ := h
    split at h
    · rename_i l hl
      simp only [Res.bind_eq_ok, Res.pure_eq, Res.ok.injEq, Option.some.injEq, toFloats_iff] at h
      obtain ⟨_, ⟨xs, hx, rfl⟩, rfl⟩ := h
      refine ⟨rfl, m, rfl, hp, xs, (matrixOf_iff ?_).1 rfl, .inl ⟨l, hl, hx⟩⟩
      have := congrArg List.length hx
      simp at this
      simp; omega
    · rename_i hn
      cases h
      exact ⟨rfl, m, rfl, hp, [], (matrixOf_iff (by simp)).1 rfl, .inr ⟨hn, rfl⟩⟩
  all_goals
    simp only [Res.bind_eq_ok, Res.pure_eq, Res.ok.injEq, Option.some.injEq, toVector3_iff, toVector2_iff, toColor3_iff,
      toUDim_iff, obj_field, obj_obj, num_iff, num32_iff, boolean_iff, numberKeypoints_iff, colorKeypoints_iff] at h
    try casesm* ∃ _, _, _ ∧ _
    try subst v
    try cases h
  all_goals first
    | exact ⟨rfl, rfl⟩
    | exact ⟨.inl rfl, rfl⟩
    | exact ⟨.inr rfl, rfl⟩
    | exact ⟨rfl, binary_getD _⟩
    | exact ⟨rfl, .inl rfl⟩
    | exact ⟨rfl, .inr ⟨rfl, rfl⟩⟩
    | exact ⟨rfl, _, rfl, rfl⟩
    | exact ⟨rfl, _, rfl, by assumption⟩
    | exact ⟨rfl, _, rfl, by assumption, by assumption⟩
    | exact ⟨rfl, _, rfl, by assumption, by assumption, by assumption⟩
    | exact ⟨rfl, _, rfl, by assumption, by assumption, by assumption, by assumption, by assumption, by assumption⟩
    | exact ⟨rfl, _, rfl, ⟨_, by assumption, rfl⟩, ⟨_, by assumption, rfl⟩⟩
    | exact ⟨rfl, _, rfl, ⟨_, by assumption, rfl⟩, ⟨_, by assumption, rfl⟩, ⟨_, by assumption, rfl⟩⟩

theorem base_of_plain {t : Ty} {j : JVal} {v : Value ρ} (h : Plain O t j v) : baseFrom O t j = .ok (some v) := by
  cases v
  case string s => obtain ⟨rfl | rfl, rfl⟩ := h <;> rfl
  case binaryString s => obtain ⟨rfl, h⟩ := h; obtain ⟨x, rfl, rfl⟩ := binary_inv h; rfl
  case sharedString s => obtain ⟨rfl, h⟩ := h; obtain ⟨x, rfl, rfl⟩ := binary_inv h; rfl
  case content s => obtain ⟨rfl, rfl | ⟨rfl, rfl⟩⟩ := h <;> rfl
  case reference => exact h.elim
  case optional => exact h.elim
  case uniqueId => exact h.elim
  case font => exact h.elim
  case protectedString s => obtain ⟨rfl, rfl⟩ := h; rfl
  case bool s => obtain ⟨rfl, rfl⟩ := h; rfl
  case double s => obtain ⟨rfl, rfl⟩ := h; rfl
  case int s => obtain ⟨rfl, f, rfl, rfl⟩ := h; rfl
  case float s => obtain ⟨rfl, f, rfl, rfl⟩ := h; rfl
  case brickColor s => obtain ⟨rfl, f, rfl, rfl⟩ := h; rfl
  case token s => obtain ⟨rfl, f, rfl, rfl⟩ := h; rfl
  case int64 s => obtain ⟨rfl, f, rfl, rfl⟩ := h; rfl
  case cframe p r =>
    obtain ⟨rfl, m, rfl, hp, xs, hx, h⟩ := h
    simp only [baseFrom, toVector3_iff.2 (obj_field.2 hp), Res.ok_bind, Res.pure_eq]
    rcases h with ⟨l, h1, h2⟩ | ⟨h1, rfl⟩
    · simp only [h1]
      have hl := congrArg List.length h2
      simp at hl
      rw [toFloats_iff.2 ⟨xs, h2, rfl⟩, Res.ok_bind, (matrixOf_iff (r := r) (by simp; omega)).2 hx]
    · rw [← (matrixOf_iff (r := r) (fs := []) (by simp)).2 hx]
      split
      · rename_i l hl; exact absurd hl (h1 l)
      · rfl
  case numberSequence ks =>
    obtain ⟨rfl, l, rfl, h⟩ := h
    simp only [baseFrom, numberKeypoints_iff.2 h, Res.ok_bind, Res.pure_eq]
  case colorSequence ks =>
    obtain ⟨rfl, l, rfl, h⟩ := h
    simp only [baseFrom, colorKeypoints_iff.2 h, Res.ok_bind, Res.pure_eq]
  all_goals
    obtain ⟨rfl, m, rfl, h⟩ := h
    simp only [baseFrom, Res.bind_eq_ok, Res.pure_eq, Res.ok.injEq, Option.some.injEq, toVector3_iff, toVector2_iff, toColor3_iff,
      toUDim_iff, obj_field, obj_obj, num_iff, num32_iff, boolean_iff]
  all_goals first
    | exact ⟨_, h, rfl⟩
    | exact ⟨_, h.1, _, h.2, rfl⟩
    | exact ⟨_, h.1, _, h.2.1, _, h.2.2, rfl⟩
    | exact ⟨_, h.1, _, h.2.1, _, h.2.2.1, _, h.2.2.2.1, _, h.2.2.2.2.1, _, h.2.2.2.2.2, rfl⟩
    | (obtain ⟨⟨x, hx, rfl⟩, y, hy, rfl⟩ := h; exact ⟨_, hx, _, hy, rfl⟩)
    | (obtain ⟨⟨x, hx, rfl⟩, ⟨y, hy, rfl⟩, z, hz, rfl⟩ := h; exact ⟨_, hx, _, hy, _, hz, rfl⟩)

variable (it : Iter)

theorem option_iff {t : Ty} {v : Value ρ} : ∀ {m : List (Bytes × JVal)}, optionFrom O it t m = .ok (some v) ↔
    ((Map.get? m (str "value") = none ∨ Map.get? m (str "value") = some .null) ∧ v = .optional t none) ∨
    ∃ x w, Map.get? m (str "value") = some x ∧ x ≠ .null ∧ valueFrom O it t x = .ok (some w) ∧ v = .optional w.type (some w)
  | [] => by
    rw [optionFrom]
    simp only [Res.ok.injEq, Option.some.injEq, Map.get?_nil]
    constructor
    · rintro rfl; exact .inl ⟨.inl trivial, rfl⟩
    · rintro (⟨-, rfl⟩ | ⟨x, w, h, -⟩)
      · rfl
      · cases h
  | (k, y) :: m => by
    rw [optionFrom.eq_def]
    by_cases hk : k = str "value"
    · simp only [hk, if_true, Map.get?]
      split
      · simp only [Res.ok.injEq, Option.some.injEq]
        constructor
        · rintro rfl; exact .inl ⟨.inr trivial, rfl⟩
        · rintro (⟨-, rfl⟩ | ⟨x, w, h, h1, -⟩)
          · rfl
          · cases h; exact absurd rfl h1
      · rename_i hn
        have hn' : y ≠ .null := hn
        constructor
        · intro h
          split at h
          · rename_i x hx
            cases h
            exact .inr ⟨y, x, rfl, hn', hx, rfl⟩
          · cases h
        · rintro (⟨h | h, -⟩ | ⟨x, w, h, h1, h2, rfl⟩)
          · cases h
          · cases h; exact absurd rfl hn'
          · cases h; rw [h2]
    · simp only [hk, if_false, Map.get?]
      exact option_iff (m := m)

theorem valueFrom_of_reads {t : Ty} {j : JVal} {v : Value ρ} (h : Reads O (typeNamed it) t j v) :
    valueFrom O it t j = .ok (some v) := by
  induction h with
  | plain h =>
    have := base_of_plain O h
    rename_i t j v
    by_cases ht : t = .optional
    · subst ht
      cases v <;> first | exact h.elim | (obtain ⟨h, -⟩ := h; cases h; done) | (obtain ⟨h | h, -⟩ := h <;> cases h)
    · rw [valueFrom_plain O it ht]; exact this
  | absent h1 h2 =>
    rw [valueFrom.eq_def]
    simp only [if_true, h1]
    exact (option_iff O it).2 (.inl ⟨h2, rfl⟩)
  | present h1 h2 h3 h4 ih =>
    rw [valueFrom.eq_def]
    simp only [if_true, h1]
    exact (option_iff O it).2 (.inr ⟨_, _, h2, h3, ih, rfl⟩)

theorem reads_of_valueFrom {t : Ty} {j : JVal} {v : Value ρ} (h : valueFrom O it t j = .ok (some v)) :
    Reads O (typeNamed it) t j v := by
  generalize hn : sizeOf j = n
  induction n using Nat.strongRecOn generalizing j t v with
  | _ n ih =>
    by_cases ht : t = .optional
    · subst ht
      rw [valueFrom.eq_def] at h
      split at h
      · rename_i m
        simp only [if_true] at h
        split at h
        · rename_i s hs
          rcases (option_iff O it).1 h with ⟨h1, rfl⟩ | ⟨x, w, h1, h2, h3, rfl⟩
          · exact .absent hs h1
          · refine .present hs h1 h2 (ih (sizeOf x) ?_ h3 rfl)
            have := List.sizeOf_lt_of_mem (Map.mem_of_get? h1)
            simp at this hn
            omega
        · cases h
      · simp only [if_true] at h
        cases h
    · rw [valueFrom_plain O it ht] at h
      exact .plain (plain_of_base O h)

theorem valueFrom_reads {t : Ty} {j : JVal} {v : Value ρ} :
    valueFrom O it t j = .ok (some v) ↔ Reads O typeOf t j v := by
  rw [← typeNamed_eq it]
  exact ⟨reads_of_valueFrom O it, valueFrom_of_reads O it⟩

end
end Json

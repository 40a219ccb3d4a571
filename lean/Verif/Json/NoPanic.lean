import Verif.Json.Panics
import Verif.Spec.JsonShape
/-!
# Documents that are converted without panicking
-/
namespace Json
open Go Rbxfile Spec

/-- The computation returns. -/
def Returns {α : Type} (x : Res α) : Prop := ∃ a, x = .ok a

theorem Returns.ok {α : Type} (a : α) : Returns (.ok a) := ⟨a, rfl⟩
theorem Returns.bind {α β : Type} {x : Res α} {f : α → Res β} (h : Returns x) (hf : ∀ a, Returns (f a)) : Returns (x >>= f) := by
  obtain ⟨a, rfl⟩ := h
  exact hf a

theorem num_returns {m : List (Bytes × JVal)} {k : String} (h : HasNum m k) : Returns (num m k) := by
  obtain ⟨f, hf⟩ := h; exact ⟨f, by simp [num, hf]⟩
theorem num32_returns {m : List (Bytes × JVal)} {k : String} (h : HasNum m k) : Returns (num32 m k) := by
  obtain ⟨f, hf⟩ := h; exact ⟨f64to32 f, by simp [num32, num, hf]⟩
theorem boolean_returns {m : List (Bytes × JVal)} {k : String} (h : HasBool m k) : Returns (boolean m k) := by
  obtain ⟨f, hf⟩ := h; exact ⟨f, by simp [boolean, hf]⟩

theorem udim_returns (O : Overflow) {m : List (Bytes × JVal)} {k : String} (h : HasNums m k ["scale", "offset"]) :
    Returns (toUDim O (field m k)) := by
  obtain ⟨m', h1, h2⟩ := h
  rw [field, h1]
  exact .bind (num32_returns (h2 _ (by simp))) fun _ => .bind (num_returns (h2 _ (by simp))) fun _ => .ok _
theorem vector3_returns {m : List (Bytes × JVal)} {k : String} (h : HasNums m k ["x", "y", "z"]) :
    Returns (toVector3 (field m k)) := by
  obtain ⟨m', h1, h2⟩ := h
  rw [field, h1]
  exact .bind (num32_returns (h2 _ (by simp))) fun _ => .bind (num32_returns (h2 _ (by simp))) fun _ =>
    .bind (num32_returns (h2 _ (by simp))) fun _ => .ok _
theorem vector2_returns {m : List (Bytes × JVal)} {k : String} (h : HasNums m k ["x", "y"]) :
    Returns (toVector2 (field m k)) := by
  obtain ⟨m', h1, h2⟩ := h
  rw [field, h1]
  exact .bind (num32_returns (h2 _ (by simp))) fun _ => .bind (num32_returns (h2 _ (by simp))) fun _ => .ok _
theorem color3_returns {m : List (Bytes × JVal)} {k : String} (h : HasNums m k ["r", "g", "b"]) :
    Returns (toColor3 (field m k)) := by
  obtain ⟨m', h1, h2⟩ := h
  rw [field, h1]
  exact .bind (num32_returns (h2 _ (by simp))) fun _ => .bind (num32_returns (h2 _ (by simp))) fun _ =>
    .bind (num32_returns (h2 _ (by simp))) fun _ => .ok _

theorem floats_return : ∀ {l : List JVal}, (∀ j ∈ l, ∃ f, j = .num f) → Returns (toFloats l)
  | [], _ => .ok _
  | j :: l, h => by
    obtain ⟨f, rfl⟩ := h j (by simp)
    exact .bind (floats_return fun i hi => h i (by simp [hi])) fun _ => .ok _

theorem numberKeypoints_return : ∀ {l : List JVal},
    (∀ m, .obj m ∈ l → ∀ k ∈ ["time", "value", "envelope"], HasNum m k) → Returns (toNumberKeypoints l)
  | [], _ => .ok _
  | j :: l, h => by
    have ih : Returns (toNumberKeypoints l) := numberKeypoints_return fun m hm => h m (by simp [hm])
    cases j with
    | obj m =>
      have hm := h m (by simp)
      exact .bind (num32_returns (hm _ (by simp))) fun _ => .bind (num32_returns (hm _ (by simp))) fun _ =>
        .bind (num32_returns (hm _ (by simp))) fun _ => .bind ih fun _ => .ok _
    | _ => exact .bind ih fun _ => .ok _

theorem colorKeypoints_return : ∀ {l : List JVal}, (∀ m, .obj m ∈ l → HasNum m "time" ∧ HasNums m "value" ["r", "g", "b"] ∧
    HasNum m "envelope") → Returns (toColorKeypoints l)
  | [], _ => .ok _
  | j :: l, h => by
    have ih : Returns (toColorKeypoints l) := colorKeypoints_return fun m hm => h m (by simp [hm])
    cases j with
    | obj m =>
      obtain ⟨h1, h2, h3⟩ := h m (by simp)
      exact .bind (num32_returns h1) fun _ => .bind (color3_returns h2) fun _ =>
        .bind (num32_returns h3) fun _ => .bind ih fun _ => .ok _
    | _ => exact .bind ih fun _ => .ok _

theorem baseFrom_returns {ρ : Type} (O : Overflow) {t : Ty} {j : JVal} (h : Shaped t j) : Returns (baseFrom (ρ := ρ) O t j) := by
  unfold baseFrom
  split <;> try exact .ok _
  · exact .bind (.bind (num32_returns h.1) fun _ => .bind (num_returns h.2) fun _ => .ok _) fun _ => .ok _
  · exact .bind (udim_returns O h.1) fun _ => .bind (udim_returns O h.2) fun _ => .ok _
  · exact .bind (vector3_returns h.1) fun _ => .bind (vector3_returns h.2) fun _ => .ok _
  · iterate 6 refine .bind (boolean_returns (h _ (by simp))) fun _ => ?_
    exact .ok _
  · iterate 3 refine .bind (boolean_returns (h _ (by simp))) fun _ => ?_
    exact .ok _
  · refine .bind ?_ fun _ => .ok _
    show Returns (_ >>= _)
    iterate 3 refine .bind (num32_returns (h _ (by simp))) fun _ => ?_
    exact .ok _
  · refine .bind ?_ fun _ => .ok _
    show Returns (_ >>= _)
    iterate 2 refine .bind (num32_returns (h _ (by simp))) fun _ => ?_
    exact .ok _
  · refine .bind ?_ fun _ => .ok _
    show Returns (_ >>= _)
    iterate 3 refine .bind (num32_returns (h _ (by simp))) fun _ => ?_
    exact .ok _
  · refine .bind (vector3_returns h.1) fun _ => ?_
    split
    · rename_i l hl
      exact .bind (floats_return (h.2 l hl)) fun _ => .ok _
    · exact .ok _
  · iterate 3 refine .bind (num_returns (h _ (by simp))) fun _ => ?_
    exact .ok _
  · iterate 2 refine .bind (num_returns (h _ (by simp))) fun _ => ?_
    exact .ok _
  · exact .bind (numberKeypoints_return h) fun _ => .ok _
  · exact .bind (colorKeypoints_return h) fun _ => .ok _
  · iterate 2 refine .bind (num32_returns (h _ (by simp))) fun _ => ?_
    exact .ok _
  · exact .bind (vector2_returns h.1) fun _ => .bind (vector2_returns h.2) fun _ => .ok _
  · refine .bind (boolean_returns h.1) fun _ => ?_
    iterate 5 refine .bind (num32_returns (h.2 _ (by simp))) fun _ => ?_
    exact .ok _
  · iterate 3 refine .bind (num_returns (h _ (by simp))) fun _ => ?_
    exact .ok _

theorem valueFrom_returns {ρ : Type} (O : Overflow) (it : Iter) {t : Ty} {j : JVal} (h : Shaped t j) :
    Returns (valueFrom (ρ := ρ) O it t j) := by
  by_cases ht : t = .optional
  · subst ht
    cases j with
    | obj m => exact absurd h id
    | _ => rw [valueFrom.eq_def]; exact .ok _
  · have : valueFrom (ρ := ρ) O it t j = baseFrom O t j := by
      rw [valueFrom.eq_def]
      split <;> simp [ht]
    rw [this]
    exact baseFrom_returns O h

/-- A value for a Reference is a string. -/
theorem valueFrom_reference (O : Overflow) (it : Iter) {j : JVal} {v : Value Nat}
    (h : valueFrom O it .reference j = .ok (some v)) : ∃ s, v = .string s := by
  have : valueFrom (ρ := Nat) O it .reference j = baseFrom O .reference j := by
    rw [valueFrom.eq_def]
    split <;> simp
  rw [this] at h
  cases j <;> simp only [baseFrom, Res.ok.injEq, Option.some.injEq, reduceCtorEq] at h
  exact ⟨_, h.symm⟩

theorem propFrom_returns {O : Overflow} {it : Iter} {j : JVal}
    (h : ∀ pm, j = .obj pm → ∀ t v, Map.get? pm (str "type") = some (.str t) → Map.get? pm (str "value") = some v →
      Shaped (tyOf (typeFromString it t)) v) : Returns (propFrom O it j) := by
  cases j with
  | obj pm =>
    unfold propFrom
    split
    · rename_i t v h1 h2
      obtain ⟨o, ho⟩ := valueFrom_returns (ρ := Nat) O it (h pm rfl t v h1 h2)
      simp only [ho]
      cases o with
      | none => exact .ok _
      | some v =>
        simp only
        split
        · rename_i hr
          rw [hr] at ho
          obtain ⟨s, rfl⟩ := valueFrom_reference O it ho
          exact .ok _
        · exact .ok _
    · exact .ok _
  | _ => exact .ok _

theorem propsFrom_returns {O : Overflow} {it : Iter} {p : Nat} : ∀ {ps : List (Bytes × JVal)},
    (∀ x ∈ ps, Returns (propFrom O it x.2)) → ∀ s, Returns (propsFrom O it p ps s)
  | [], _, s => .ok _
  | (n, j) :: ps, h, s => by
    have ih := fun s => propsFrom_returns (p := p) (fun x hx => h x (List.mem_cons_of_mem _ hx)) s
    obtain ⟨o, ho⟩ := h (n, j) (by simp)
    simp only at ho
    rw [propsFrom, ho]
    cases o <;> exact ih _

theorem childrenFrom_returns {O : Overflow} {it : Iter} : ∀ {l : List JVal}, (∀ c ∈ l, ¬ IsInstance c) → ∀ s,
    Returns (childrenFrom O it l s)
  | [], _, s => by rw [childrenFrom]; exact .ok _
  | j :: l, h, s => by
    have hj : ∃ s', instFrom O it j s = .ok (none, s') := by
      rw [instFrom.eq_def]
      split
      · split
        · rename_i m s _ cls hc
          exact absurd ⟨_, _, rfl, hc⟩ (h _ (by simp))
        · exact ⟨_, rfl⟩
      · exact ⟨_, rfl⟩
    obtain ⟨s', hs'⟩ := hj
    rw [childrenFrom, hs']
    exact childrenFrom_returns (fun c hc => h c (by simp [hc])) s'

theorem childrenField_returns {O : Overflow} {it : Iter} : ∀ {m : List (Bytes × JVal)},
    (∀ l, Map.get? m (str "children") = some (.arr l) → ∀ c ∈ l, ¬ IsInstance c) → ∀ s, Returns (childrenField O it m s)
  | [], _, s => by rw [childrenField]; exact .ok _
  | (k, v) :: m, h, s => by
    rw [childrenField.eq_def]
    by_cases hk : k = str "children"
    · simp only [hk, if_true]
      split
      · rename_i l
        exact childrenFrom_returns (h l (by simp [Map.get?, hk])) s
      · exact .ok _
    · simp only [hk, if_false]
      exact childrenField_returns (fun l hl => h l (by simp [Map.get?, hk, hl])) s

theorem instFrom_returns {O : Overflow} {it : Iter} {j : JVal}
    (h : ShapedInstance (fun t => tyOf (typeFromString it t)) j) (s : JState) : Returns (instFrom O it j s) := by
  cases j with
  | obj m =>
    rw [instFrom]
    obtain ⟨h1, h2⟩ := h m rfl
    split
    · refine .bind ?_ fun s1 => .bind (childrenField_returns h1 _) fun _ => .ok _
      unfold fill
      simp only
      split
      · rename_i ps hps
        refine propsFrom_returns ?_ _
        rintro ⟨n, pj⟩ hx
        refine propFrom_returns ?_
        rintro pm rfl
        exact h2 ps hps n pm ((it.perm _ _).mem_iff.1 hx)
      · exact .ok _
    · exact .ok _
  | _ => rw [instFrom.eq_def]; exact .ok _

theorem listFrom_returns {O : Overflow} {it : Iter} : ∀ {l : List JVal},
    (∀ j ∈ l, ShapedInstance (fun t => tyOf (typeFromString it t)) j) → ∀ s, Returns (listFrom O it l s)
  | [], _, s => .ok _
  | j :: l, h, s => by
    rw [listFrom]
    exact .bind (instFrom_returns (h j (by simp)) s) fun _ =>
      .bind (listFrom_returns (fun i hi => h i (by simp [hi])) _) fun _ => .ok _

end Json

import Verif.Spec.JsonFields
import Verif.Json.ReadMain
/-!
# The order of fields does not matter to the conversion from JSON
-/
namespace Json
open Go Rbxfile Spec

/-- Values that have the same fields, all distinct. -/
inductive FieldsAlike : JVal → JVal → Prop
  | null : FieldsAlike .null .null
  | bool (b : Bool) : FieldsAlike (.bool b) (.bool b)
  | num (f : F64) : FieldsAlike (.num f) (.num f)
  | str (s : Bytes) : FieldsAlike (.str s) (.str s)
  | type (t : Ty) : FieldsAlike (.type t) (.type t)
  | arr {l l' : List JVal} : l.length = l'.length →
      (∀ (i : Nat) (j j' : JVal), l[i]? = some j → l'[i]? = some j' → FieldsAlike j j') → FieldsAlike (.arr l) (.arr l')
  | obj {m m' : List (Bytes × JVal)} : (m.map Prod.fst).Nodup → (m'.map Prod.fst).Nodup →
      (∀ k, Map.get? m k = none ↔ Map.get? m' k = none) →
      (∀ k j j', Map.get? m k = some j → Map.get? m' k = some j' → FieldsAlike j j') → FieldsAlike (.obj m) (.obj m')

theorem FieldsAlike.symm {j j' : JVal} (h : FieldsAlike j j') : FieldsAlike j' j := by
  induction h with
  | null => exact .null
  | bool b => exact .bool b
  | num f => exact .num f
  | str s => exact .str s
  | type t => exact .type t
  | arr e _ ih => exact .arr e.symm fun i j j' h h' => ih i _ _ h' h
  | obj n n' e _ ih => exact .obj n' n (fun k => (e k).symm) fun k j j' h h' => ih k _ _ h' h

theorem FieldsAlike.trans {i j : JVal} (h : FieldsAlike i j) : ∀ {k : JVal}, FieldsAlike j k → FieldsAlike i k := by
  induction h with
  | null => exact id
  | bool b => exact id
  | num f => exact id
  | str s => exact id
  | type t => exact id
  | @arr l l' e _ ih =>
    intro k h
    cases h with
    | @arr _ l'' e' h' =>
      refine .arr (e.trans e') fun i j j' h1 h2 => ?_
      obtain ⟨hi, -⟩ := List.getElem?_eq_some_iff.1 h1
      have h3 : l'[i]? = some l'[i] := List.getElem?_eq_getElem (by omega)
      exact ih i _ _ h1 h3 (h' i _ _ h3 h2)
  | @obj m m' n n' e _ ih =>
    intro k h
    cases h with
    | @obj _ m'' _ n'' e' h' =>
      refine .obj n n'' (fun k => (e k).trans (e' k)) fun k j j' h1 h2 => ?_
      cases h3 : Map.get? m' k with
      | none => rw [(e k).2 h3] at h1; cases h1
      | some x => exact ih k _ _ h1 h3 (h' k _ _ h3 h2)

theorem JsonInside.trans {a b : JVal} (h : JsonInside a b) : ∀ {c : JVal}, JsonInside b c → JsonInside a c := by
  intro c hc
  induction hc with
  | self => exact h
  | item hm _ ih => exact .item hm ih
  | field hm _ ih => exact .field hm ih

theorem _root_.Spec.DistinctFields.inside {i j : JVal} (h : DistinctFields j) (hi : JsonInside i j) : DistinctFields i :=
  fun _ hm => h _ (JsonInside.trans hm hi)

theorem FieldsAlike.refl : ∀ {j : JVal}, DistinctFields j → FieldsAlike j j
  | .null, _ => .null
  | .bool b, _ => .bool b
  | .num f, _ => .num f
  | .str s, _ => .str s
  | .type t, _ => .type t
  | .arr l, h => .arr rfl fun i j j' h1 h2 => by
    rw [h1] at h2
    cases h2
    have hm := List.mem_of_getElem? h1
    exact FieldsAlike.refl (h.inside (.item hm .self))
  | .obj m, h => .obj (h m .self) (h m .self) (fun _ => Iff.rfl) fun k j j' h1 h2 => by
    rw [h1] at h2
    cases h2
    have hm := Map.mem_of_get? h1
    have : sizeOf j < sizeOf m := by
      have e := List.sizeOf_lt_of_mem hm
      have : sizeOf (k, j) = 1 + sizeOf k + sizeOf j := rfl
      omega
    exact FieldsAlike.refl (h.inside (.field hm .self))

theorem SameJson.distinct {j j' : JVal} (h : SameJson j j') (hd : DistinctFields j) : DistinctFields j' := by
  induction h with
  | refl => exact hd
  | trans _ _ ih1 ih2 => exact ih2 (ih1 hd)
  | @order m m' hp =>
    intro x hx
    cases hx with
    | self => exact ((hp.map Prod.fst).nodup_iff).1 (hd m .self)
    | field hm hi => exact hd x (.field (hp.mem_iff.2 hm) hi)
  | @field a b k j j' _ ih =>
    intro x hx
    cases hx with
    | self => simpa using hd _ .self
    | field hm hi =>
      rcases List.mem_append.1 hm with hm | hm
      · exact hd x (.field (List.mem_append.2 (.inl hm)) hi)
      · rcases List.mem_cons.1 hm with e | hm
        · cases e
          exact ih (hd.inside (.field (k := k) (by simp) .self)) x hi
        · exact hd x (.field (List.mem_append.2 (.inr (List.mem_cons_of_mem _ hm))) hi)
  | @item a b j j' _ ih =>
    intro x hx
    cases hx with
    | item hm hi =>
      rcases List.mem_append.1 hm with hm | hm
      · exact hd x (.item (List.mem_append.2 (.inl hm)) hi)
      · rcases List.mem_cons.1 hm with e | hm
        · cases e
          exact ih (hd.inside (.item (by simp) .self)) x hi
        · exact hd x (.item (List.mem_append.2 (.inr (List.mem_cons_of_mem _ hm))) hi)

theorem get?_perm {m m' : List (Bytes × JVal)} (h : m.Perm m') (n : (m.map Prod.fst).Nodup) (k : Bytes) :
    Map.get? m k = Map.get? m' k := by
  have n' := ((h.map Prod.fst).nodup_iff).1 n
  cases e : Map.get? m' k with
  | some x => exact Map.get?_of_mem n (h.mem_iff.2 (Map.mem_of_get? e))
  | none =>
    cases e' : Map.get? m k with
    | none => rfl
    | some x =>
      have := Map.get?_of_mem n' (h.mem_iff.1 (Map.mem_of_get? e'))
      rw [e] at this
      cases this

theorem get?_replace (k : Bytes) (j j' : JVal) (b : List (Bytes × JVal)) (q : Bytes) : ∀ a : List (Bytes × JVal),
    Map.get? (a ++ (k, j) :: b) q = Map.get? (a ++ (k, j') :: b) q ∨
    (Map.get? (a ++ (k, j) :: b) q = some j ∧ Map.get? (a ++ (k, j') :: b) q = some j')
  | [] => by
    simp only [List.nil_append, Map.get?]
    by_cases h : k = q
    · right; simp [h]
    · left; simp [h]
  | (x, y) :: a => by
    simp only [List.cons_append, Map.get?]
    by_cases h : x = q
    · left; simp [h]
    · simp only [h, if_false]
      exact get?_replace k j j' b q a

theorem SameJson.alike {j j' : JVal} (h : SameJson j j') (hd : DistinctFields j) : FieldsAlike j j' := by
  induction h with
  | refl => exact .refl hd
  | trans h1 _ ih1 ih2 => exact (ih1 hd).trans (ih2 (SameJson.distinct h1 hd))
  | @order m m' hp =>
    have n := hd m .self
    refine .obj n (((hp.map Prod.fst).nodup_iff).1 n) (fun k => by rw [get?_perm hp n]) fun k j j' h1 h2 => ?_
    rw [← get?_perm hp n, h1] at h2
    cases h2
    exact .refl (hd.inside (.field (Map.mem_of_get? h1) .self))
  | @field a b k j j' hs ih =>
    have hj : DistinctFields j := hd.inside (.field (m := a ++ (k, j) :: b) (k := k) (by simp) .self)
    refine .obj (hd _ .self) (by simpa using hd _ .self) (fun q => ?_) fun q x y h1 h2 => ?_
    · rcases get?_replace k j j' b q a with e | ⟨e1, e2⟩
      · rw [e]
      · rw [e1, e2]; simp
    · rcases get?_replace k j j' b q a with e | ⟨e1, e2⟩
      · rw [← e, h1] at h2
        cases h2
        exact .refl (hd.inside (.field (Map.mem_of_get? h1) .self))
      · rw [e1] at h1; rw [e2] at h2
        cases h1; cases h2
        exact ih hj
  | @item a b j j' hs ih =>
    have hj : DistinctFields j := hd.inside (.item (l := a ++ j :: b) (by simp) .self)
    refine .arr (by simp) fun i x y h1 h2 => ?_
    rw [List.getElem?_append] at h1 h2
    split at h1
    · rename_i hi
      rw [if_pos hi] at h2
      rw [h1] at h2
      cases h2
      exact .refl (hd.inside (.item (List.mem_append.2 (.inl (List.mem_of_getElem? h1))) .self))
    · rename_i hi
      rw [if_neg hi] at h2
      cases hn : i - a.length with
      | zero =>
        rw [hn] at h1 h2
        simp only [List.getElem?_cons_zero, Option.some.injEq] at h1 h2
        subst h1; subst h2
        exact ih hj
      | succ n =>
        rw [hn] at h1 h2
        simp only [List.getElem?_cons_succ] at h1 h2
        rw [h1] at h2
        cases h2
        exact .refl (hd.inside (.item (List.mem_append.2 (.inr (List.mem_cons_of_mem _ (List.mem_of_getElem? h1)))) .self))

/-! ## Values -/

section
variable {m m' : List (Bytes × JVal)}

theorem FieldsAlike.get (h : FieldsAlike (.obj m) (.obj m')) (k : Bytes) :
    (Map.get? m k = none ∧ Map.get? m' k = none) ∨
    ∃ j j', Map.get? m k = some j ∧ Map.get? m' k = some j' ∧ FieldsAlike j j' := by
  cases h with
  | obj _ _ e h =>
    cases h1 : Map.get? m k with
    | none => exact .inl ⟨rfl, (e k).1 h1⟩
    | some j =>
      cases h2 : Map.get? m' k with
      | none => rw [(e k).2 h2] at h1; cases h1
      | some j' => exact .inr ⟨j, j', rfl, rfl, h k _ _ h1 h2⟩

theorem num_alike (h : FieldsAlike (.obj m) (.obj m')) (k : String) : num m k = num m' k := by
  unfold num
  rcases h.get (Go.str k) with ⟨e1, e2⟩ | ⟨j, j', e1, e2, hj⟩
  · rw [e1, e2]
  · rw [e1, e2]; cases hj <;> rfl

theorem num32_alike (h : FieldsAlike (.obj m) (.obj m')) (k : String) : num32 m k = num32 m' k := by
  unfold num32; rw [num_alike h]

theorem boolean_alike (h : FieldsAlike (.obj m) (.obj m')) (k : String) : boolean m k = boolean m' k := by
  unfold boolean
  rcases h.get (Go.str k) with ⟨e1, e2⟩ | ⟨j, j', e1, e2, hj⟩
  · rw [e1, e2]
  · rw [e1, e2]; cases hj <;> rfl

theorem field_alike (h : FieldsAlike (.obj m) (.obj m')) (k : String) : FieldsAlike (field m k) (field m' k) := by
  unfold field
  rcases h.get (Go.str k) with ⟨e1, e2⟩ | ⟨j, j', e1, e2, hj⟩
  · rw [e1, e2]; exact .null
  · rw [e1, e2]; exact hj
end

section
variable {j j' : JVal}
theorem toUDim_alike (O : Overflow) (h : FieldsAlike j j') : toUDim O j = toUDim O j' := by
  cases h with
  | obj a b c d => have h := FieldsAlike.obj a b c d; simp only [toUDim, num_alike h, num32_alike h]
  | _ => rfl
theorem toVector3_alike (h : FieldsAlike j j') : toVector3 j = toVector3 j' := by
  cases h with
  | obj a b c d => have h := FieldsAlike.obj a b c d; simp only [toVector3, num32_alike h]
  | _ => rfl
theorem toVector2_alike (h : FieldsAlike j j') : toVector2 j = toVector2 j' := by
  cases h with
  | obj a b c d => have h := FieldsAlike.obj a b c d; simp only [toVector2, num32_alike h]
  | _ => rfl
theorem toColor3_alike (h : FieldsAlike j j') : toColor3 j = toColor3 j' := by
  cases h with
  | obj a b c d => have h := FieldsAlike.obj a b c d; simp only [toColor3, num32_alike h]
  | _ => rfl
end

theorem FieldsAlike.items {l l' : List JVal} (h : FieldsAlike (.arr l) (.arr l')) : List.Forall₂ FieldsAlike l l' := by
  cases h with
  | arr e h =>
    refine List.forall₂_iff_get.2 ⟨e, fun i h1 h2 => ?_⟩
    exact h i _ _ (by simp) (by simp)

theorem toFloats_alike {l l' : List JVal} (h : List.Forall₂ FieldsAlike l l') : toFloats l = toFloats l' := by
  induction h with
  | nil => rfl
  | cons h _ ih => cases h <;> simp only [toFloats, ih]

theorem toNumberKeypoints_alike {l l' : List JVal} (h : List.Forall₂ FieldsAlike l l') :
    toNumberKeypoints l = toNumberKeypoints l' := by
  induction h with
  | nil => rfl
  | cons h _ ih =>
    cases h with
    | obj a b c d => have h := FieldsAlike.obj a b c d; simp only [toNumberKeypoints, num32_alike h, ih]
    | _ => simp only [toNumberKeypoints, ih]

theorem toColorKeypoints_alike {l l' : List JVal} (h : List.Forall₂ FieldsAlike l l') :
    toColorKeypoints l = toColorKeypoints l' := by
  induction h with
  | nil => rfl
  | cons h _ ih =>
    cases h with
    | obj a b c d =>
      have h := FieldsAlike.obj a b c d
      simp only [toColorKeypoints, num32_alike h, toColor3_alike (field_alike h _), ih]
    | _ => simp only [toColorKeypoints, ih]

theorem baseFrom_alike {ρ : Type} (O : Overflow) (t : Ty) {j j' : JVal} (hj : FieldsAlike j j') :
    baseFrom (ρ := ρ) O t j = baseFrom O t j' := by
  cases hj with
  | obj a b c d =>
    have h := FieldsAlike.obj a b c d
    cases t
    case cframe =>
      simp only [baseFrom, toVector3_alike (field_alike h _)]
      rcases h.get (Go.str "rotation") with ⟨e1, e2⟩ | ⟨j, j', e1, e2, hj⟩
      · rw [e1, e2]
      · rw [e1, e2]
        cases hj with
        | arr e g =>
          simp only [toFloats_alike (List.forall₂_take 9 (FieldsAlike.items (.arr e g)))]
        | _ => rfl
    all_goals simp only [baseFrom, toUDim_alike O h, toUDim_alike O (field_alike h _), toVector3_alike h, toVector3_alike (field_alike h _),
        toVector2_alike h, toVector2_alike (field_alike h _), toColor3_alike h, boolean_alike h, num_alike h, num32_alike h]
  | arr e g =>
    have h := FieldsAlike.items (.arr e g)
    cases t <;> simp only [baseFrom, toNumberKeypoints_alike h, toColorKeypoints_alike h]
  | _ => rfl

/-- The key `value` is looked up. -/
theorem optionFrom_get {ρ : Type} (O : Overflow) (it : Iter) (t : Ty) : ∀ m, optionFrom (ρ := ρ) O it t m =
    match Map.get? m (str "value") with
    | none => .ok (some (.optional t none))
    | some .null => .ok (some (.optional t none))
    | some v => match valueFrom O it t v with
      | .ok (some x) => .ok (some (.optional x.type (some x)))
      | _ => .panic
  | [] => by rw [optionFrom]; rfl
  | (k, v) :: m => by
    rw [optionFrom.eq_def]
    by_cases hk : k = str "value"
    · simp only [hk, if_true, Map.get?]
      cases v <;> rfl
    · simp only [hk, if_false, Map.get?]
      exact optionFrom_get O it t m

theorem valueFrom_alike {ρ : Type} (O : Overflow) (it it' : Iter) {j j' : JVal} (h : FieldsAlike j j') : ∀ t,
    valueFrom (ρ := ρ) O it t j = valueFrom O it' t j' := by
  induction h with
  | arr e g _ =>
    intro t
    by_cases ht : t = .optional
    · subst ht; rfl
    · rw [valueFrom_plain O it ht, valueFrom_plain O it' ht]; exact baseFrom_alike O t (.arr e g)
  | @obj m m' n n' e g ih =>
    intro t
    by_cases ht : t = .optional
    · subst ht
      have h := FieldsAlike.obj n n' e g
      rw [valueFrom, valueFrom]
      simp only [if_true]
      have fin : ∀ t, optionFrom (ρ := ρ) O it t m = optionFrom O it' t m' := by
        intro t
        rw [optionFrom_get, optionFrom_get]
        rcases h.get (Go.str "value") with ⟨e1, e2⟩ | ⟨j, j', e1, e2, hj⟩
        · rw [e1, e2]
        · have := ih _ _ _ e1 e2 t
          rw [e1, e2]
          cases hj <;> simp only [this]
      rcases h.get (Go.str "type") with ⟨e1, e2⟩ | ⟨j, j', e1, e2, hj⟩
      · rw [e1, e2]
      · rw [e1, e2]
        cases hj with
        | str s =>
          simp only
          have e3 : tyOf (typeFromString it s) = tyOf (typeFromString it' s) := by
            show typeNamed it s = typeNamed it' s
            rw [typeNamed_eq, typeNamed_eq]
          rw [e3]
          exact fin _
        | _ => rfl
    · rw [valueFrom_plain O it ht, valueFrom_plain O it' ht]; exact baseFrom_alike O t (.obj n n' e g)
  | _ =>
    intro t
    by_cases ht : t = .optional
    · subst ht; rfl
    · rw [valueFrom_plain O it ht, valueFrom_plain O it' ht]

theorem index_alike {j j' : JVal} (h : FieldsAlike j j') (k : Bytes) :
    (index j k = none ∧ index j' k = none) ∨ ∃ x y, index j k = some x ∧ index j' k = some y ∧ FieldsAlike x y := by
  cases h with
  | obj a b c d => exact (FieldsAlike.obj a b c d).get k
  | _ => exact .inl ⟨rfl, rfl⟩

theorem propFrom_alike (O : Overflow) (it it' : Iter) {j j' : JVal} (h : FieldsAlike j j') : propFrom O it j = propFrom O it' j' := by
  unfold propFrom
  rcases index_alike h (str "type") with ⟨e1, e2⟩ | ⟨x, y, e1, e2, hx⟩
  · rw [e1, e2]
  · rw [e1, e2]
    rcases index_alike h (str "value") with ⟨e3, e4⟩ | ⟨v, w, e3, e4, hv⟩
    · rw [e3, e4]; cases hx <;> rfl
    · rw [e3, e4]
      cases hx with
      | str s =>
        simp only
        have e : tyOf (typeFromString it s) = tyOf (typeFromString it' s) := by
          show typeNamed it s = typeNamed it' s
          rw [typeNamed_eq, typeNamed_eq]
        rw [e, valueFrom_alike O it it' hv]
      | _ => rfl

end Json

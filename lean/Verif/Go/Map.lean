import Verif.Go.Basic
/-!
# Go maps

A Go map is an association list with distinct keys.  The order of the list plays the role of the
(unspecified) iteration order.
-/
namespace Go

/-- A Go `map[κ]ν`. -/
abbrev Map (κ ν : Type) := List (κ × ν)

namespace Map
variable {κ ν : Type} [DecidableEq κ]

/-- `m[k]` (with presence). -/
def get? : Map κ ν → κ → Option ν
  | [], _ => none
  | (k', v) :: m, k => if k' = k then some v else get? m k

/-- `m[k] = v`. -/
def set : Map κ ν → κ → ν → Map κ ν
  | [], k, v => [(k, v)]
  | (k', v') :: m, k, v => if k' = k then (k, v) :: m else (k', v') :: set m k v

/-- `delete(m, k)`. -/
def erase : Map κ ν → κ → Map κ ν
  | [], _ => []
  | (k', v') :: m, k => if k' = k then erase m k else (k', v') :: erase m k

/-- The keys, in iteration order. -/
def keys (m : Map κ ν) : List κ := m.map Prod.fst

/-- The invariant of a Go map: no key occurs twice. -/
def Ok (m : Map κ ν) : Prop := (m.map Prod.fst).Nodup

@[simp] theorem get?_nil (k : κ) : get? ([] : Map κ ν) k = none := rfl

theorem get?_set (m : Map κ ν) (k k' : κ) (v : ν) :
    (m.set k v).get? k' = if k' = k then some v else m.get? k' := by
  induction m with
  | nil => simp [set, get?, eq_comm]
  | cons a m ih =>
    obtain ⟨k0, v0⟩ := a
    simp only [set]
    split
    · subst_vars
      simp only [get?]
      split
      · simp_all
      · rename_i h; simp [Ne.symm h]
    · simp only [get?]
      split
      · subst_vars; rename_i h; simp [h]
      · exact ih

@[simp] theorem get?_set_self (m : Map κ ν) (k : κ) (v : ν) : (m.set k v).get? k = some v := by
  simp [get?_set]

theorem get?_set_ne (m : Map κ ν) {k k' : κ} (v : ν) (h : k' ≠ k) :
    (m.set k v).get? k' = m.get? k' := by simp [get?_set, h]

theorem get?_eq_none {m : Map κ ν} {k : κ} : m.get? k = none ↔ k ∉ m.map Prod.fst := by
  induction m with
  | nil => simp
  | cons a m ih =>
    obtain ⟨k0, v0⟩ := a
    simp only [get?, List.map_cons, List.mem_cons]
    split
    · subst_vars; simp
    · rename_i h; simp [ih, Ne.symm h]

theorem get?_isSome {m : Map κ ν} {k : κ} : (m.get? k).isSome ↔ k ∈ m.map Prod.fst := by
  cases h : m.get? k
  · have := get?_eq_none.1 h; simpa using this
  · simp only [Option.isSome_some, true_iff]
    false_or_by_contra
    rename_i hn
    rw [get?_eq_none.2 hn] at h; cases h

theorem mem_of_get? {m : Map κ ν} {k : κ} {v : ν} (h : m.get? k = some v) : (k, v) ∈ m := by
  induction m with
  | nil => simp at h
  | cons a m ih =>
    obtain ⟨k0, v0⟩ := a
    simp only [get?] at h
    split at h
    · subst_vars; cases h; simp
    · exact List.mem_cons_of_mem _ (ih h)

theorem get?_of_mem {m : Map κ ν} (ho : Ok m) {k : κ} {v : ν} (h : (k, v) ∈ m) :
    m.get? k = some v := by
  induction m with
  | nil => simp at h
  | cons a m ih =>
    obtain ⟨k0, v0⟩ := a
    simp only [Ok, List.map_cons, List.nodup_cons] at ho
    rcases List.mem_cons.1 h with e | e
    · cases e; simp [get?]
    · simp only [get?]
      split
      · subst_vars
        exact absurd (List.mem_map_of_mem (f := Prod.fst) e) ho.1
      · exact ih ho.2 e

theorem map_fst_set (m : Map κ ν) (k : κ) (v : ν) :
    (m.set k v).map Prod.fst = if k ∈ m.map Prod.fst then m.map Prod.fst
      else m.map Prod.fst ++ [k] := by
  induction m with
  | nil => simp [set]
  | cons a m ih =>
    obtain ⟨k0, v0⟩ := a
    simp only [set]
    split
    · subst_vars; simp
    · rename_i h
      simp only [List.map_cons, ih, List.mem_cons, Ne.symm h, false_or]
      split <;> simp

theorem ok_set {m : Map κ ν} (h : Ok m) (k : κ) (v : ν) : Ok (m.set k v) := by
  unfold Ok at *
  rw [map_fst_set]
  split
  · exact h
  · rename_i hk
    rw [List.nodup_append]
    refine ⟨h, by simp, ?_⟩
    intro a ha b hb
    simp only [List.mem_singleton] at hb
    subst hb
    rintro rfl
    exact hk ha

omit [DecidableEq κ] in
theorem ok_nil : Ok ([] : Map κ ν) := List.nodup_nil

theorem get?_perm {m m' : Map κ ν} (h : Ok m) (hp : m.Perm m') (k : κ) : m.get? k = m'.get? k := by
  have h' : Ok m' := (hp.map Prod.fst).nodup_iff.1 h
  cases e : m.get? k with
  | none =>
    symm
    rw [get?_eq_none] at e ⊢
    exact fun hm => e ((hp.map Prod.fst).mem_iff.2 hm)
  | some v => exact (get?_of_mem h' (hp.mem_iff.1 (mem_of_get? e))).symm

theorem set_new {m : Map κ ν} {k : κ} (h : k ∉ m.map Prod.fst) (v : ν) :
    m.set k v = m ++ [(k, v)] := by
  induction m with
  | nil => rfl
  | cons a m ih =>
    obtain ⟨k0, v0⟩ := a
    simp only [List.map_cons, List.mem_cons, not_or] at h
    simp [set, Ne.symm h.1, ih h.2]

theorem get?_append (m m' : Map κ ν) (k : κ) :
    Map.get? (m ++ m') k = (m.get? k).or (m'.get? k) := by
  induction m with
  | nil => simp [get?]
  | cons a m ih =>
    obtain ⟨k0, v0⟩ := a
    simp only [List.cons_append, get?]
    split <;> simp_all

theorem get?_erase (m : Map κ ν) (k k' : κ) :
    (m.erase k).get? k' = if k' = k then none else m.get? k' := by
  induction m with
  | nil => simp [erase]
  | cons a m ih =>
    obtain ⟨k0, v0⟩ := a
    simp only [erase, get?]
    split
    · subst_vars
      rw [ih]
      split
      · rfl
      · rename_i h; simp [Ne.symm h]
    · simp only [get?]
      split
      · subst_vars; rename_i h; simp [h]
      · exact ih

end Map
end Go

import Verif.Rbxl.EncTree
/-!
# Structures of instances that are finite, but may contain an instance several times
-/
namespace Rbxfile
open Go Spec

variable {ρ : Type} [DecidableEq ρ]

theorem forest_unique {h : Heap ρ} {ps : List ρ} {l : Map ρ (Inst ρ)} (f : Forest h ps l) :
    ∀ {l' : Map ρ (Inst ρ)}, Forest h ps l' → l' = l := by
  induction f with
  | nil => intro l' f'; cases f'; rfl
  | cons hp _ _ ih1 ih2 =>
    intro l' f'
    cases f' with
    | cons hp' f1' f2' =>
      rw [hp] at hp'; cases hp'
      rw [ih1 f1', ih2 f2']

/-- What is below an instance of the structure. -/
theorem forest_below {h : Heap ρ} {ps : List ρ} {l : Map ρ (Inst ρ)} (f : Forest h ps l) :
    ∀ x ∈ l, ∃ below : Map ρ (Inst ρ), Forest h x.2.children below ∧ below.length < l.length ∧ ∀ y ∈ below, y ∈ l := by
  induction f with
  | nil => intro x hx; cases hx
  | @cons p ps inst below rest hp f1 f2 ih1 ih2 =>
    intro x hx
    rcases List.mem_cons.1 hx with rfl | hx
    · exact ⟨below, f1, by simp; omega, fun y hy => by simp [hy]⟩
    · rcases List.mem_append.1 hx with hx | hx
      · obtain ⟨b, g1, g2, g3⟩ := ih1 x hx
        exact ⟨b, g1, by simp; omega, fun y hy => by simp [g3 y hy]⟩
      · obtain ⟨b, g1, g2, g3⟩ := ih2 x hx
        exact ⟨b, g1, by simp; omega, fun y hy => by simp [g3 y hy]⟩

/-- An instance of a finite structure is not below itself. -/
theorem forest_acyclic {h : Heap ρ} {p : ρ} {inst : Inst ρ} {below : Map ρ (Inst ρ)} (hp : h.get? p = some inst)
    (f : Forest h inst.children below) : p ∉ below.map Prod.fst := by
  intro hm
  obtain ⟨x, hx, rfl⟩ := List.mem_map.1 hm
  have := Rbxl.Forest.get? f x hx
  rw [hp] at this
  cases x with | mk q i =>
  simp only [Option.some.injEq] at this hp hx
  subst this
  obtain ⟨b, g1, g2, -⟩ := forest_below f _ hx
  rw [forest_unique f g1] at g2
  omega

/-- A list of different instances, one below the other, is not longer than the heap. -/
theorem path_length {h : Heap ρ} {path : List ρ} (hn : path.Nodup) (hp : ∀ q ∈ path, (h.get? q).isSome) :
    path.length ≤ h.length := by
  have hs : path ⊆ h.map Prod.fst := fun q hq => Map.get?_isSome.1 (hp q hq)
  have := List.Nodup.length_le_of_subset hn hs
  simpa using this

end Rbxfile

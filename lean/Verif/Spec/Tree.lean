import Verif.Rbxfile.Values
/-!
# Specification vocabulary: trees of instances
-/
namespace Spec
open Go Rbxfile

variable {ρ : Type} [DecidableEq ρ]

/-- `Forest h ps l`: following the children of the instances `ps` in the heap `h` yields finitely
many instances, and `l` lists them (with the pointers) parents first, children in order. -/
inductive Forest (h : Heap ρ) : List ρ → Map ρ (Inst ρ) → Prop
  | nil : Forest h [] []
  | cons {p : ρ} {ps : List ρ} {inst : Inst ρ} {below rest : Map ρ (Inst ρ)} :
      h.get? p = some inst → Forest h inst.children below → Forest h ps rest →
      Forest h (p :: ps) ((p, inst) :: (below ++ rest))

/-- The instances `ps` are the roots of disjoint trees whose instances are listed by `l`: no
instance occurs twice. -/
def Trees (h : Heap ρ) (ps : List ρ) (l : Map ρ (Inst ρ)) : Prop := Forest h ps l ∧ l.Ok

end Spec

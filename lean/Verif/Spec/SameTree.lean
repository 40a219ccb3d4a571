import Verif.Spec.Tree
import Mathlib.Data.List.Forall2
/-!
# Specification vocabulary: trees that differ only in where their instances are stored
-/
namespace Spec
open Go Rbxfile

variable {ρ : Type} [DecidableEq ρ]

/-- Two references correspond: they refer to corresponding instances, or both to no instance of their tree. `ren` lists the
pairs of corresponding instances. -/
def SameRef (ren : List (ρ × ρ)) (p q : Option ρ) : Prop :=
  (∃ a b, p = some a ∧ q = some b ∧ (a, b) ∈ ren) ∨
    ((∀ a, p = some a → a ∉ ren.map Prod.fst) ∧ ∀ b, q = some b → b ∉ ren.map Prod.snd)

/-- Two values are the same, references aside. -/
def SameValue (ren : List (ρ × ρ)) : Value ρ → Value ρ → Prop
  | .reference p, .reference q => SameRef ren p q
  | v, w => v = w

/-- Two properties are the same, or both are absent. -/
def SameProperty (ren : List (ρ × ρ)) : Option (Value ρ) → Option (Value ρ) → Prop
  | none, none => True
  | some v, some w => SameValue ren v w
  | _, _ => False

/-- The trees `ps` of the heap `h`, whose instances are listed by `l`, and the trees `ps'` of the heap `h'`, whose instances are
listed by `l'`, are the same: `ren` lists the pairs of corresponding instances. The `Reference` fields may differ. -/
structure SameTree (h : Heap ρ) (ps : List ρ) (l : Map ρ (Inst ρ)) (h' : Heap ρ) (ps' : List ρ) (l' : Map ρ (Inst ρ))
    (ren : List (ρ × ρ)) : Prop where
  left : ren.map Prod.fst = l.map Prod.fst
  right : ren.map Prod.snd = l'.map Prod.fst
  roots : List.Forall₂ (fun p c => (p, c) ∈ ren) ps ps'
  inst : ∀ p c a b, (p, c) ∈ ren → h.get? p = some a → h'.get? c = some b →
    b.className = a.className ∧ b.isService = a.isService ∧
    List.Forall₂ (fun p c => (p, c) ∈ ren) a.children b.children ∧
    ∀ n, SameProperty ren (a.properties.get? n) (b.properties.get? n)

end Spec

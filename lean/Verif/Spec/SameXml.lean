import Verif.Spec.Tree
import Verif.Rbxfile.Refs
/-!
# Specification vocabulary: trees that are the same, with the references of their instances
-/
namespace Spec
open Go Rbxfile

variable {ρ : Type} [DecidableEq ρ]

/-- Two values are the same: references are both nil, or lead to instances with the same `Reference`. -/
def SameXmlValue (h h' : Heap ρ) : Value ρ → Value ρ → Prop
  | .reference (some p), .reference (some q) => ∃ a b, h.get? p = some a ∧ h'.get? q = some b ∧ a.reference = b.reference
  | v, w => v = w

/-- Two properties are the same, or both are absent. -/
def SameXmlProperty (h h' : Heap ρ) : Option (Value ρ) → Option (Value ρ) → Prop
  | none, none => True
  | some v, some w => SameXmlValue h h' v w
  | _, _ => False

/-- The trees `ps` of the heap `h` and the trees `ps'` of the heap `h'` are the same: corresponding instances have the same
class, `Reference`, properties, and the same children in the same order. -/
inductive SameXmlForest (h h' : Heap ρ) : List ρ → List ρ → Prop
  | nil : SameXmlForest h h' [] []
  | cons {p q : ρ} {ps qs : List ρ} {a b : Inst ρ} : h.get? p = some a → h'.get? q = some b →
      a.className = b.className → a.reference = b.reference →
      (∀ n, SameXmlProperty h h' (a.properties.get? n) (b.properties.get? n)) →
      SameXmlForest h h' a.children b.children → SameXmlForest h h' ps qs → SameXmlForest h h' (p :: ps) (q :: qs)

/-- An instance of the tree whose instances are listed by `l`, or one that a property in the tree refers to. -/
def Mentioned (l : Map ρ (Inst ρ)) (p : ρ) : Prop :=
  p ∈ l.map Prod.fst ∨ ∃ x ∈ l, ∃ n, x.2.properties.get? n = some (.reference (some p))

/-- The instances of a tree, and those that it refers to, exist and have References, which are different. -/
structure DistinctReferences (h : Heap ρ) (l : Map ρ (Inst ρ)) : Prop where
  present : ∀ p, Mentioned l p → ∃ a, h.get? p = some a ∧ isEmptyReference a.reference = false
  different : ∀ p q a b, Mentioned l p → Mentioned l q → h.get? p = some a → h.get? q = some b →
    a.reference = b.reference → p = q

end Spec

import Verif.Spec.Effects
/-!
# Parts of a file that have nothing to do with each other
-/
namespace Spec
open Go Rbxfile

/-- No property, no children of the same parent, no entry of the metadata that both have an effect on; and if one supplies the contents of
SharedString values, the other does not supply them, or properties. -/
structure Apart (e e' : Effects) : Prop where
  property : ∀ id n, ¬ (e.property id n ∧ e'.property id n)
  child : ∀ p c c', ¬ (e.child p c ∧ e'.child p c')
  metadata : ∀ k, ¬ (e.metadata k ∧ e'.metadata k)
  shared : ¬ (e.shared ∧ e'.shared)
  left : e.shared → ∀ id n, ¬ e'.property id n
  right : e'.shared → ∀ id n, ¬ e.property id n

/-- The two trees are the same: the roots, the metadata, and each instance by its number. (Maps have no order.) -/
structure SameDecoded {ρ : Type} [DecidableEq ρ] (h h' : Heap ρ) (r r' : Root ρ) : Prop where
  roots : r.instances = r'.instances
  metadata : ∀ k, r.metadata.get? k = r'.metadata.get? k
  instances : ∀ id, (h.get? id = none ∧ h'.get? id = none) ∨ ∃ i j, h.get? id = some i ∧ h'.get? id = some j ∧
    i.className = j.className ∧ i.reference = j.reference ∧ i.isService = j.isService ∧ i.children = j.children ∧
    ∀ n, i.properties.get? n = j.properties.get? n

end Spec

import Verif.Rbxfile.Values
/-!
# What a part of a file has an effect on
-/
namespace Spec
open Go Rbxfile

/-- What may differ between two trees: the properties of instances, the children of instances and those of the root (which has the
reference -1), the metadata, and the contents of SharedString values. -/
structure Effects where
  property : BitVec 32 → Bytes → Prop := fun _ _ => False
  child : BitVec 32 → BitVec 32 → Prop := fun _ _ => False
  metadata : Bytes → Prop := fun _ => False
  shared : Prop := False

/-- The second of two properties of the same name, `v` and `w`, may differ from the first in its content. -/
def ValueBesides (e : Effects) (v w : Value (BitVec 32)) : Prop :=
  v = w ∨ (e.shared ∧ (∃ s, v = .sharedString s) ∧ ∃ s, w = .sharedString s)

/-- The second list has some more elements, in any place, that may differ. -/
def ChildrenBesides (e : Effects) (parent : BitVec 32) (l m : List (BitVec 32)) : Prop :=
  l.Sublist m ∧ ∀ c, ¬ e.child parent c → l.count c = m.count c

/-- The instances are the same besides what may differ. -/
structure InstBesides (e : Effects) (id : BitVec 32) (i j : Inst (BitVec 32)) : Prop where
  className : i.className = j.className
  reference : i.reference = j.reference
  isService : i.isService = j.isService
  properties : ∀ n, ¬ e.property id n → (i.properties.get? n = none ∧ j.properties.get? n = none) ∨
    ∃ v w, i.properties.get? n = some v ∧ j.properties.get? n = some w ∧ ValueBesides e v w
  children : ChildrenBesides e id i.children j.children

/-- The trees are the same besides what may differ: `h` and `r` are without it, `h'` and `r'` with it. -/
structure SameBesides (e : Effects) (h h' : Heap (BitVec 32)) (r r' : Root (BitVec 32)) : Prop where
  instances : ∀ id, (h.get? id = none ∧ h'.get? id = none) ∨ ∃ i j, h.get? id = some i ∧ h'.get? id = some j ∧ InstBesides e id i j
  roots : ChildrenBesides e (-1) r.instances r'.instances
  metadata : ∀ k, ¬ e.metadata k → r.metadata.get? k = r'.metadata.get? k

end Spec

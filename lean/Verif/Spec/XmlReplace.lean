import Verif.Spec.XmlOrder
/-!
# Documents that differ in some Items
-/
namespace Spec
open Go Rbxfile Rbxlx

mutual
/-- How many instances a tag stands for. -/
def itemCount : Tag → Nat
  | ⟨h, ts⟩ => if h.startName = str "Item" ∧ (attrValue h.attr (str "class")).isSome = true then 1 + itemsCount ts else 0
/-- How many instances the tags stand for. -/
def itemsCount : List Tag → Nat
  | [] => 0
  | t :: ts => itemCount t + itemsCount ts
end

/-- `Replaced x y k ts ts'`: the tags `x` somewhere in `ts`, between other tags or deep inside Items, are replaced with `y`; `k` instances
are described before them. -/
inductive Replaced (x y : List Tag) : Nat → List Tag → List Tag → Prop
  | here {before after : List Tag} : Replaced x y (itemsCount before) (before ++ (x ++ after)) (before ++ (y ++ after))
  | inside {k : Nat} {head : Head} {ts ts' before after : List Tag} : IsItem ⟨head, ts⟩ → Replaced x y k ts ts' →
      Replaced x y (itemsCount before + (1 + k)) (before ++ ⟨head, ts⟩ :: after) (before ++ ⟨head, ts'⟩ :: after)

/-- The number of an instance if the `m` instances from the `k`-th on are not counted, which have no number. -/
def numberBeside (k m p : Nat) : Option Nat := if p < k then some p else if p < k + m then none else some (p - m)

/-- The same value; or references that lead to the same instance beside those replaced, or to none; or one leads to an instance that is
replaced, or that replaces one. -/
def SameBeside (f g : Nat → Option Nat) (v w : Option (Value Nat)) : Prop :=
  (v = w ∧ ∀ p, v ≠ some (.reference (some p))) ∨
  ∃ r s, v = some (.reference r) ∧ w = some (.reference s) ∧
    (r.map f = s.map g ∨ (∃ p, r = some p ∧ f p = none) ∨ ∃ q, s = some q ∧ g q = none)

/-- Two trees that are the same beside some instances: the others are those with a number. -/
structure SameOthers (f g : Nat → Option Nat) (h h' : Heap Nat) (r r' : Root Nat) : Prop where
  roots : r.instances.filterMap f = r'.instances.filterMap g
  metadata : ∀ k, r.metadata.get? k = r'.metadata.get? k
  instances : ∀ p q n, f p = some n → g q = some n → (h.get? p = none ∧ h'.get? q = none) ∨ ∃ i j, h.get? p = some i ∧ h'.get? q = some j ∧
    i.className = j.className ∧ i.reference = j.reference ∧ i.isService = j.isService ∧ i.children.filterMap f = j.children.filterMap g ∧
    ∀ name, SameBeside f g (i.properties.get? name) (j.properties.get? name)

end Spec

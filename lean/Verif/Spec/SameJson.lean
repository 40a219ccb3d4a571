import Verif.Json.Model
import Verif.Spec.Mentions
import Verif.Spec.Tree
/-!
# Specification vocabulary: JSON values that differ in the order of fields only; the instances that a tree mentions
-/
namespace Spec
open Go Rbxfile Json

/-- JSON values that differ in the order of the fields of objects only. -/
inductive SameJson : JVal → JVal → Prop
  | refl (j : JVal) : SameJson j j
  | trans {i j k : JVal} : SameJson i j → SameJson j k → SameJson i k
  | order {m m' : List (Bytes × JVal)} : m.Perm m' → SameJson (.obj m) (.obj m')
  | field (a b : List (Bytes × JVal)) (k : Bytes) {j j' : JVal} : SameJson j j' →
      SameJson (.obj (a ++ (k, j) :: b)) (.obj (a ++ (k, j') :: b))
  | item (a b : List JVal) {j j' : JVal} : SameJson j j' → SameJson (.arr (a ++ j :: b)) (.arr (a ++ j' :: b))

/-- An instance of the tree whose instances are listed by `l`, or one that a property in the tree refers to, itself or as an
Optional. -/
def JsonMentioned (l : Map Nat (Inst Nat)) (p : Nat) : Prop :=
  p ∈ l.map Prod.fst ∨ ∃ x ∈ l, ∃ y ∈ x.2.properties, Mentions y.2 p

/-- The instances of a tree, and those that it refers to, exist and have References, which are different. -/
structure JsonDistinct (h : Heap Nat) (l : Map Nat (Inst Nat)) : Prop where
  present : ∀ p, JsonMentioned l p → ∃ a, h.get? p = some a ∧ isEmptyReference a.reference = false
  different : ∀ p q a b, JsonMentioned l p → JsonMentioned l q → h.get? p = some a → h.get? q = some b →
    a.reference = b.reference → p = q

end Spec

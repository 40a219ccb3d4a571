import Verif.Spec.SameJson
/-!
# Specification vocabulary: JSON whose objects have distinct fields; instances that are alike
-/
namespace Spec
open Go Rbxfile Json

/-- `i` is `j` or occurs in it. -/
inductive JsonInside (i : JVal) : JVal → Prop
  | self : JsonInside i i
  | item {l : List JVal} {j : JVal} : j ∈ l → JsonInside i j → JsonInside i (.arr l)
  | field {m : List (Bytes × JVal)} {k : Bytes} {j : JVal} : (k, j) ∈ m → JsonInside i j → JsonInside i (.obj m)

/-- No object in the value has two fields of the same name, as is the case for everything that `encoding/json` yields. -/
def DistinctFields (j : JVal) : Prop := ∀ m, JsonInside (.obj m) j → (m.map Prod.fst).Nodup

/-- Instances that are equal but for the order in which their properties are stored, which nobody can see: they are in a map. -/
structure InstanceAlike (a b : Inst Nat) : Prop where
  className : a.className = b.className
  reference : a.reference = b.reference
  isService : a.isService = b.isService
  children : a.children = b.children
  properties : ∀ n, a.properties.get? n = b.properties.get? n

/-- The same instances. -/
def InstancesAlike (h h' : Heap Nat) : Prop :=
  h.length = h'.length ∧ ∀ p, Option.Rel InstanceAlike (h.get? p) (h'.get? p)

end Spec

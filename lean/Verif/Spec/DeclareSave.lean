import Verif.Spec.DeclareValue
import Verif.Spec.Declare
/-!
# Specification vocabulary: declarations that are saved
-/
namespace Spec
open Go Rbxfile Declare

/-- Every property is declared with one of the types, not with some other number. -/
def WellTyped (ds : List Primary) : Prop :=
  ∀ q, Occurs q (instancesOf ds) → ∃ t : Ty, t ≠ .invalid ∧ q.typ = t.code

/-- References are declared by texts, not by pointers to instances made elsewhere. -/
def NoPointers (ds : List Primary) : Prop :=
  ∀ q, Occurs q (instancesOf ds) → ∀ a ∈ q.value, ∀ p, a ≠ .inst (some p) ∧ a ≠ .value (.reference (some p))

/-- The declaration of the property `n` of the first instance of the class `cls` that has one. -/
def firstDeclared (l : List (Nat × Instance)) (cls n : Bytes) : Option Property :=
  ((l.filter fun x => decide (x.2.className = cls)).filterMap fun x => lastProp x.2.properties n).head?

end Spec

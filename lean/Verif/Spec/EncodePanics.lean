import Verif.Spec.Binary
/-!
# Specification vocabulary: the trees on which the binary encoder panics
-/
namespace Spec
open Go Rbxfile

variable {ρ : Type}

/-- An Optional with elements of the type `t`, as far as the binary format distinguishes types. -/
def OptionalOf (t : Ty) (v : Value ρ) : Prop := ∃ t' o, v = .optional t' o ∧ binType t' = binType t

/-- The values that the instances of a class have for some property, in the order of the instances, make the encoder panic:
the first one is an Optional without a type of elements; or it is an Optional, and so are those that follow, until there is one
with another type of elements; or all are Optionals of Optionals. -/
def BadOptionals (vs : List (Value ρ)) : Prop :=
  ∃ t o rest, vs = .optional t o :: rest ∧
    (t = .invalid ∨
     (∃ pre t' o' post, rest = pre ++ .optional t' o' :: post ∧ binType t' ≠ binType t ∧ ∀ v ∈ pre, OptionalOf t v) ∨
     (t = .optional ∧ ∀ v ∈ rest, OptionalOf t v))

end Spec

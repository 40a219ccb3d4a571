import Verif.Rbxfile.Values
/-!
# Specification vocabulary: the instance that a value refers to
-/
namespace Spec
open Go Rbxfile

/-- A value refers to an instance: it is a Reference to it, or an Optional of a value that refers to it. -/
inductive Mentions {ρ : Type} : Value ρ → ρ → Prop
  | reference (q : ρ) : Mentions (.reference (some q)) q
  | optional (t : Ty) (v : Value ρ) (q : ρ) : Mentions v q → Mentions (.optional t (some v)) q

end Spec

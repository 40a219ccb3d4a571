import Verif.Spec.XmlValue
/-!
# Specification vocabulary: what becomes of the values that the XML format does not keep
-/
namespace Spec
open Go Rbxfile

/-- `XmlAltered discard v o`: a property with the value `v`, which is not `XmlSupported`, has after decoding the value
`o`; it is dropped if that is `none`. `discard` is the option to discard invalid properties. -/
inductive XmlAltered {ρ σ : Type} (discard : Bool) : Value ρ → Option (Value σ) → Prop
  /-- A BrickColor becomes an Int, the greatest one if its number is too great. -/
  | brickColor {n : BitVec 32} : n.toNat < 2 ^ 31 → XmlAltered discard (.brickColor n) (some (.int n))
  | brickColorMax {n : BitVec 32} : 2 ^ 31 ≤ n.toNat → XmlAltered discard (.brickColor n) (some (.int 0x7fffffff#32))
  /-- The direction of a Ray becomes its origin. -/
  | ray {o d o' d' : Vector3} : o ≠ d → SameVector3 o o' → SameVector3 o d' →
    XmlAltered discard (.ray o d) (some (.ray o' d'))
  /-- A token becomes the greatest one that is kept. -/
  | token {n : BitVec 32} : 2 ^ 31 ≤ n.toNat → XmlAltered discard (.token n) (some (.token 0x7fffffff#32))
  /-- The weight of a Font becomes the greatest one that is kept, and its style the first one. -/
  | weight {fam c : Bytes} {w : BitVec 16} {st : BitVec 8} : 2 ^ 15 ≤ w.toNat →
    XmlAltered discard (.font fam w st c) (some (.font (normText fam) 0x7fff#16 0 (normText c)))
  /-- A Font with an unknown style becomes the zero value, or is dropped. -/
  | style {fam c : Bytes} {w : BitVec 16} {st : BitVec 8} : w.toNat < 2 ^ 15 → 1 < st.toNat →
    XmlAltered discard (.font fam w st c) (if discard then none else some (.font [] 0 0 []))
  /-- An Optional that has a CFrame but another type is dropped. -/
  | mistyped {t : Ty} {p : Vector3} {r : Matrix} : t ≠ .cframe →
    XmlAltered discard (.optional t (some (.cframe p r))) none
  /-- An Optional that has another value becomes an absent one of its type. -/
  | optional {t : Ty} {v : Value ρ} : v.type ≠ .cframe → t ≠ .optional →
    XmlAltered discard (.optional t (some v)) (some (.optional t none))
  /-- The type of an Optional becomes invalid if it is itself the type of Optionals. -/
  | nested {v : Option (Value ρ)} : (∀ x : Value ρ, v = some x → x.type ≠ .cframe) →
    XmlAltered discard (.optional .optional v) (some (.optional .invalid none))

end Spec

import Verif.Rbxfile.Values
import Verif.Spec.Xml
/-!
# Specification vocabulary: values that an XML file keeps when it is saved again
-/
namespace Spec
open Go Rbxfile

variable {ρ : Type}

/-- A value for which reading what is written for it and writing that gives the same text. Excepted are: carriage
returns behind the leading white space, which are read as line feeds; the numbers of a BrickColor and a token from `2 ^ 31` on; a weight of a font
from `2 ^ 15` on, an unknown style of a font; the two denormal doubles `± 202402254 * 2 ^ -1074`, which are written as
1e-315, of which the nearest double is written as 9.99999998e-316; an Optional with a CFrame and another type. -/
def Settled : Value ρ → Prop
  | .string s | .protectedString s | .content s => normText s = s
  | .brickColor n | .token n => n.toNat < 2 ^ 31
  | .double f => f.toNat % 2 ^ 63 ≠ 202402254
  | .optional t (some (.cframe _ _)) => t = .cframe
  | .font fam w st c => w.toNat < 2 ^ 15 ∧ st.toNat ≤ 1 ∧ normText fam = fam ∧ normText c = c
  | _ => True

end Spec

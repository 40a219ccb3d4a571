import Verif.Rbxl.ErrorText
/-!
# Specification vocabulary: what an error says besides its cause, and when it cannot say it
-/
namespace Spec
open Go Rbxl

/-- What an error that wraps another one adds to it: the type of the value; nothing; the offset in the data, if it is known; the
position, if it is known, and the printed signature of the chunk; the position in the array. -/
inductive Context where
  | value (type : Byte)
  | xml
  | codec
  | data (offset : Option Nat)
  | chunk (position : Option Nat) (signature : Bytes)
  | index (position : Int)
  deriving DecidableEq, Repr

/-- A place that is known: negative numbers stand for one that is not. -/
def known (n : BitVec 64) : Option Nat := if n.toInt < 0 then none else some n.toInt.toNat

/-- The error `e` adds the context `w` to its cause `c`. -/
inductive Wraps : GoError → Context → GoError → Prop
  | value (t c) : Wraps (.value t (some c)) (.value t) c
  | xml (c) : Wraps (.xml (some c)) .xml c
  | codec (c) : Wraps (.codec (some c)) .codec c
  | data (n c) : Wraps (.data n (some c)) (.data (known n)) c
  | chunk (i s c) : Wraps (.chunk i s (some c)) (.chunk (known i) (sigString s)) c
  | index (i c) : Wraps (.index i (some c)) (.index i.toInt) c

/-- The error `e` adds the contexts `ws`, the outermost first, to the error `c`. -/
inductive Layers : GoError → List Context → GoError → Prop
  | nil (c) : Layers c [] c
  | cons {e w d ws c} : Wraps e w d → Layers d ws c → Layers e (w :: ws) c

/-- Somewhere on the way through the causes, up to an error about an element of an array, an error on a value or a chunk lacks its
cause, or a list has a nil error. -/
inductive Causeless : GoError → Prop
  | value (t) : Causeless (.value t none)
  | chunk (i s) : Causeless (.chunk i s none)
  | cause {e w c} : Wraps e w c → (∀ i, w ≠ .index i) → Causeless c → Causeless e
  | nil {l} : none ∈ l → Causeless (.errs l)
  | elem {l e} : some e ∈ l → Causeless e → Causeless (.errs l)

end Spec

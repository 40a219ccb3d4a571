import Verif.Go.Basic
/-!
# Specification vocabulary: writers

A writer in the sense of Go's `io.Writer`, as it looks from outside: the calls it received.
-/
namespace Spec
open Go

/-- A call of `Write` (or `WriteString`): the bytes offered, how many were taken, and the error returned. -/
structure Call (ε : Type) where
  data : Bytes
  n : Nat
  err : Option ε
  deriving DecidableEq

/-- The bytes that have reached the writer. -/
def received {ε : Type} (cs : List (Call ε)) : Bytes := cs.flatMap fun c => c.data.take c.n

/-- The calls and the error reported are those of an output `out` written as a whole: all of it arrived and no call
failed; or the last call, and no other, failed, its error is the one reported, and a beginning of the output arrived. -/
def Delivered {ε : Type} (out : Bytes) (cs : List (Call ε)) : Option ε → Prop
  | none => received cs = out ∧ ∀ c ∈ cs, c.err = none
  | some e => received cs <+: out ∧ ∃ before last, cs = before ++ [last] ∧ last.err = some e ∧ ∀ c ∈ before, c.err = none

end Spec

import Verif.Go.Basic
/-!
# Specification vocabulary: readers

A reader in the sense of Go's `io.Reader`, as a state machine: its state may be of any type, and how much of its data a
call of `Read` returns may depend on the state and on the size of the buffer.
-/
namespace Spec
open Go

/-- What ends a stream: `io.EOF` or any other error. -/
inductive Stop (ε : Type) where
  | eof
  | fail (e : ε)
  deriving DecidableEq

/-- An `io.Reader`: a call of `Read` with a buffer of the given size returns the new state, the bytes put in the buffer,
and the error. -/
structure Reader (σ ε : Type) where
  read : σ → Nat → σ × Bytes × Option (Stop ε)
  read_ok : ∀ s n, (read s n).2.1.length ≤ n

/-- From the state `s` on, the reader returns no data and the error `e`, whatever is called. -/
def Dead {σ ε : Type} (R : Reader σ ε) (e : Stop ε) (s : σ) : Prop :=
  ∃ P : σ → Prop, P s ∧ ∀ s, P s → ∀ n, 0 < n → ∃ s', R.read s n = (s', [], some e) ∧ P s'

/-- `Yields R e s out`: whatever the sizes of the buffers, from the state `s` on the reader delivers `out`, in any number
of pieces, and then the error `e`, with the last piece or after it; after that, the same error. Calls that deliver
nothing are allowed, but not without end. -/
inductive Yields {σ ε : Type} (R : Reader σ ε) (e : Stop ε) : σ → Bytes → Prop
  | mk {s : σ} {out : Bytes} :
    (∀ n, 0 < n → (R.read s n).2.2 = none → (R.read s n).2.1 <+: out) →
    (∀ n, 0 < n → (R.read s n).2.2 = none → Yields R e (R.read s n).1 (out.drop (R.read s n).2.1.length)) →
    (∀ n, 0 < n → ∀ x, (R.read s n).2.2 = some x → x = e ∧ (R.read s n).2.1 = out ∧ Dead R e (R.read s n).1) →
    Yields R e s out

end Spec

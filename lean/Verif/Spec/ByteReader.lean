import Verif.Spec.Reader
/-!
# Specification vocabulary: byte readers

A reader in the sense of Go's `io.ByteReader`, as a state machine.
-/
namespace Spec
open Go

/-- An `io.ByteReader`: a call of `ReadByte` returns the new state, and a byte or an error. -/
structure ByteReader (τ ε : Type) where
  readByte : τ → τ × Sum Byte (Stop ε)

/-- From the state `t` on, the reader delivers the given bytes and then, again and again, the error `e`. -/
inductive Feeds {τ ε : Type} (B : ByteReader τ ε) (e : Stop ε) : τ → Bytes → Prop
  | done {t : τ} : (∃ P : τ → Prop, P t ∧ ∀ t, P t → ∃ t', B.readByte t = (t', .inr e) ∧ P t') → Feeds B e t []
  | byte {t t' : τ} {c : Byte} {b : Bytes} : B.readByte t = (t', .inl c) → Feeds B e t' b → Feeds B e t (c :: b)

/-- In the state `s`, the next `k` calls of `Read` with a buffer of size `n` return neither data nor an error. -/
def Stalls {σ ε : Type} (R : Reader σ ε) (n : Nat) : Nat → σ → Prop
  | 0, _ => True
  | k + 1, s => ∃ s', R.read s n = (s', [], none) ∧ Stalls R n k s'

end Spec

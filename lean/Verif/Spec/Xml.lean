import Verif.Go.Basic
/-!
# Specification vocabulary: text in XML
-/
namespace Spec
open Go

/-- XML whitespace as the format understands it: space, tab, line feed, form feed, carriage return. -/
def XmlSpace (b : Byte) : Prop := b.toNat = 32 ∨ b.toNat = 9 ∨ b.toNat = 10 ∨ b.toNat = 12 ∨ b.toNat = 13

instance (b : Byte) : Decidable (XmlSpace b) := by unfold XmlSpace; infer_instance

/-- Normalisation of line ends: CR LF and a CR on its own become LF. -/
def normNewlines : Bytes → Bytes
  | 13#8 :: 10#8 :: s => 10#8 :: normNewlines s
  | 13#8 :: s => 10#8 :: normNewlines s
  | b :: s => b :: normNewlines s
  | [] => []

/-- Line ends are normalised except in leading whitespace. -/
def normText (s : Bytes) : Bytes :=
  s.takeWhile (fun b => decide (XmlSpace b)) ++ normNewlines (s.dropWhile (fun b => decide (XmlSpace b)))

/-- Text without a carriage return is not changed by the normalisation. -/
theorem normNewlines_of_no_cr : ∀ {s : Bytes}, 13#8 ∉ s → normNewlines s = s
  | [], _ => rfl
  | b :: s, h => by
    have hb : b ≠ 13#8 := fun e => h (by simp [e])
    have hs : 13#8 ∉ s := fun e => h (by simp [e])
    have ih := normNewlines_of_no_cr hs
    cases s with
    | nil => 
      unfold normNewlines
      split
      · rename_i heq; cases heq
      · rename_i heq; cases heq; exact absurd rfl hb
      · rename_i heq; cases heq; rw [ih]
      · rename_i heq; cases heq
    | cons c s =>
      unfold normNewlines
      split
      · rename_i heq; cases heq; exact absurd rfl hb
      · rename_i heq; cases heq; exact absurd rfl hb
      · rename_i heq; cases heq; rw [ih]
      · rename_i heq; cases heq

end Spec

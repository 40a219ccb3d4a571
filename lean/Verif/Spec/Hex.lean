import Verif.Go.Basic
/-!
# Specification vocabulary: hexadecimal numerals
-/
namespace Spec
open Go

/-- The value of a hexadecimal digit written with a given set of letters. -/
def digitOf (digits : String) (c : Byte) : Option Nat :=
  (digits.toList.map fun d => BitVec.ofNat 8 d.toNat).idxOf? c

/-- The number denoted by a numeral in base 16, most significant digit first; `none` if a character
is not one of the digits. -/
def parseHex (digits : String) : Bytes → Option Nat :=
  fun s => s.foldl (fun n c => do return 16 * (← n) + (← digitOf digits c)) (some 0)

/-- The number denoted by bytes, most significant first. -/
def bigEndian (b : Bytes) : Nat := b.foldl (fun n x => 256 * n + x.toNat) 0

end Spec

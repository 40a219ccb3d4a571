import Verif.Rbxl.Dump
import Verif.Spec.Dump
import Verif.Rbxlx.ShortFloat
/-!
# The texts of numbers in a dump
-/
namespace Rbxl
open Go Spec Rbxlx

/-- What may follow a number. -/
def Stop (c : Byte) : Prop := c = 10#8 ∨ c = 41#8 ∨ c = 125#8 ∨ c = 32#8 ∨ c = 44#8 ∨ c = 58#8 ∨ c = 80#8

instance (c : Byte) : Decidable (Stop c) := by unfold Stop; infer_instance

theorem short_word (φ : FloatFmt) (p : Nat) {l : Bytes → Int → Bytes} (hl : NumLayout l) (neg : Bool) (bits : Nat) :
    ∀ c ∈ φ.short p l neg bits, ¬ Stop c := by
  rcases short_chars φ p hl neg bits with h | h | h | h
  · intro c hc hs
    have := h c hc
    unfold Stop at hs
    rcases hs with rfl | rfl | rfl | rfl | rfl | rfl | rfl <;> revert this <;> unfold numChar <;> decide
  all_goals rw [h]; decide +kernel

theorem short_head (φ : FloatFmt) (p : Nat) {l : Bytes → Int → Bytes} (hl : NumLayout l) (neg : Bool) (bits : Nat) :
    (φ.short p l neg bits).head? ≠ some 110#8 := by
  rcases short_chars φ p hl neg bits with h | h | h | h
  · intro he
    have := h 110#8 (List.mem_of_mem_head? (by rw [he]; rfl))
    revert this
    unfold numChar
    decide
  all_goals rw [h]; decide +kernel

theorem isNaN_iff (f : F32) : F32.isNaN f = decide (0x7f800000 < f.toNat % 2 ^ 31) := by
  unfold F32.isNaN
  rw [BitVec.toNat_and, show (0x7fffffff#32).toNat = 2 ^ 31 - 1 by decide, Nat.and_two_pow_sub_one_eq_mod]

theorem short32_inj {l : Bytes → Int → Bytes} (hl : NumLayout l) {f g : F32} (h : short32 l f = short32 l g) :
    shown32 f = shown32 g := by
  have h1 := short32_parse hl f
  rw [h, short32_parse hl g, Option.some.injEq] at h1
  unfold shown32
  rw [isNaN_iff, isNaN_iff]
  simpa using h1.symm

theorem short64_inj {l : Bytes → Int → Bytes} (hl : NumLayout l) {f g : F64} (h : short64 l f = short64 l g) :
    shown64 f = shown64 g := by
  have h1 := short64_parse hl f
  rw [h, short64_parse hl g, Option.some.injEq] at h1
  unfold shown64 isNaN64
  simpa using h1.symm

/-- Letters, digits and other signs of ASCII as they are. -/
def asciiText : DumpText where
  isPrint r := decide (32 ≤ r) && decide (r < 127)
  isGraphic r := decide (32 ≤ r) && decide (r < 127)
  time _ := str "2021-01-01T00:00:00Z"
  fault _ _ b := (formatUint b.length, str "EOF")
  spill _ b := b

end Rbxl

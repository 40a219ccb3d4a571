import Verif.Go.Basic
/-!
# Integer and float bit transforms of the binary format (rbxl/values.go:528-553)
-/
namespace Rbxl
open Go

/-- `encodeZigzag32` (rbxl/values.go:528-530); `>>` on `int32` is arithmetic. -/
def encodeZigzag32 (n : BitVec 32) : BitVec 32 := (n <<< 1) ^^^ n.sshiftRight 31

/-- `decodeZigzag32` (rbxl/values.go:532-534). -/
def decodeZigzag32 (n : BitVec 32) : BitVec 32 :=
  (n >>> 1) ^^^ ((n &&& 1#32) <<< 31).sshiftRight 31

/-- `encodeZigzag64` (rbxl/values.go:536-538). -/
def encodeZigzag64 (n : BitVec 64) : BitVec 64 := (n <<< 1) ^^^ n.sshiftRight 63

/-- `decodeZigzag64` (rbxl/values.go:540-542). -/
def decodeZigzag64 (n : BitVec 64) : BitVec 64 :=
  (n >>> 1) ^^^ ((n &&& 1#64) <<< 63).sshiftRight 63

/-- `encodeRobloxFloat` on raw float bits (rbxl/values.go:545-548). -/
def encodeRobloxFloat (f : F32) : BitVec 32 := (f <<< 1) ||| (f >>> 31)

/-- `decodeRobloxFloat` to raw float bits (rbxl/values.go:550-553). -/
def decodeRobloxFloat (n : BitVec 32) : F32 := (n >>> 1) ||| (n <<< 31)

/-! ## helper lemmas -/

theorem sshiftRight_top {w : Nat} (n : BitVec (w + 1)) :
    n.sshiftRight w = if n.msb then BitVec.allOnes (w + 1) else 0#(w + 1) := by
  apply BitVec.eq_of_getLsbD_eq
  intro i hi
  rw [BitVec.getLsbD_sshiftRight]
  have hm : n.msb = n.getLsbD w := by simp [BitVec.msb_eq_getLsbD_last]
  rcases Nat.eq_zero_or_pos i with h | h
  · subst h; cases hb : n.msb <;> simp_all
  · have : ¬ (w + i < w + 1) := by omega
    have h2 : decide (i < w + 1) = true := by simpa using hi
    cases hb : n.msb <;> simp_all


theorem encodeZigzag32_toNat (n : BitVec 32) : (encodeZigzag32 n).toNat =
    if n.toNat < 2 ^ 31 then 2 * n.toNat else 2 ^ 32 - 1 - (2 * n.toNat) % 2 ^ 32 := by
  have hn := n.isLt
  have hm : n.msb = decide (2 ^ 31 ≤ n.toNat) := by simp [BitVec.msb_eq_decide]
  simp only [encodeZigzag32, sshiftRight_top (w := 31)]
  by_cases h : n.toNat < 2 ^ 31
  · have : n.msb = false := by rw [hm]; simpa using h
    simp [this, h, Nat.shiftLeft_eq]; omega
  · have : n.msb = true := by rw [hm]; simpa using h
    simp only [this, if_true, if_neg h, BitVec.xor_allOnes, BitVec.toNat_not,
      BitVec.toNat_shiftLeft, Nat.shiftLeft_eq]
    omega

theorem decodeZigzag32_toNat (n : BitVec 32) : (decodeZigzag32 n).toNat =
    if n.toNat % 2 = 0 then n.toNat / 2 else 2 ^ 32 - 1 - n.toNat / 2 := by
  have hn := n.isLt
  have hm : ((n &&& 1#32) <<< 31).msb = decide (n.toNat % 2 = 1) := by
    rw [BitVec.msb_eq_decide]
    have : (n &&& 1#32).toNat = n.toNat % 2 := by
      simp [Nat.and_one_is_mod]
    simp only [BitVec.toNat_shiftLeft, this, Nat.shiftLeft_eq]
    rcases Nat.mod_two_eq_zero_or_one n.toNat with h | h <;> simp [h]
  simp only [decodeZigzag32, sshiftRight_top (w := 31), hm]
  rcases Nat.mod_two_eq_zero_or_one n.toNat with h | h
  · simp [h, Nat.shiftRight_eq_div_pow]
  · simp only [h, decide_true, if_true, BitVec.xor_allOnes, BitVec.toNat_not, toNat_shr]
    simp

theorem decode_encode_zigzag32 (n : BitVec 32) : decodeZigzag32 (encodeZigzag32 n) = n := by
  apply BitVec.eq_of_toNat_eq
  have hn := n.isLt
  rw [decodeZigzag32_toNat, encodeZigzag32_toNat]
  split <;> split <;> omega

theorem encode_decode_zigzag32 (n : BitVec 32) : encodeZigzag32 (decodeZigzag32 n) = n := by
  apply BitVec.eq_of_toNat_eq
  have hn := n.isLt
  rw [encodeZigzag32_toNat, decodeZigzag32_toNat]
  split <;> split <;> omega

theorem encodeZigzag64_toNat (n : BitVec 64) : (encodeZigzag64 n).toNat =
    if n.toNat < 2 ^ 63 then 2 * n.toNat else 2 ^ 64 - 1 - (2 * n.toNat) % 2 ^ 64 := by
  have hn := n.isLt
  have hm : n.msb = decide (2 ^ 63 ≤ n.toNat) := by simp [BitVec.msb_eq_decide]
  simp only [encodeZigzag64, sshiftRight_top (w := 63)]
  by_cases h : n.toNat < 2 ^ 63
  · have : n.msb = false := by rw [hm]; simpa using h
    simp [this, h, Nat.shiftLeft_eq]; omega
  · have : n.msb = true := by rw [hm]; simpa using h
    simp only [this, if_true, if_neg h, BitVec.xor_allOnes, BitVec.toNat_not,
      BitVec.toNat_shiftLeft, Nat.shiftLeft_eq]
    omega

theorem decodeZigzag64_toNat (n : BitVec 64) : (decodeZigzag64 n).toNat =
    if n.toNat % 2 = 0 then n.toNat / 2 else 2 ^ 64 - 1 - n.toNat / 2 := by
  have hn := n.isLt
  have hm : ((n &&& 1#64) <<< 63).msb = decide (n.toNat % 2 = 1) := by
    rw [BitVec.msb_eq_decide]
    have : (n &&& 1#64).toNat = n.toNat % 2 := by
      simp [Nat.and_one_is_mod]
    simp only [BitVec.toNat_shiftLeft, this, Nat.shiftLeft_eq]
    rcases Nat.mod_two_eq_zero_or_one n.toNat with h | h <;> simp [h]
  simp only [decodeZigzag64, sshiftRight_top (w := 63), hm]
  rcases Nat.mod_two_eq_zero_or_one n.toNat with h | h
  · simp [h, Nat.shiftRight_eq_div_pow]
  · simp only [h, decide_true, if_true, BitVec.xor_allOnes, BitVec.toNat_not, toNat_shr]
    simp

theorem decode_encode_zigzag64 (n : BitVec 64) : decodeZigzag64 (encodeZigzag64 n) = n := by
  apply BitVec.eq_of_toNat_eq
  have hn := n.isLt
  rw [decodeZigzag64_toNat, encodeZigzag64_toNat]
  split <;> split <;> omega

theorem encode_decode_zigzag64 (n : BitVec 64) : encodeZigzag64 (decodeZigzag64 n) = n := by
  apply BitVec.eq_of_toNat_eq
  have hn := n.isLt
  rw [encodeZigzag64_toNat, decodeZigzag64_toNat]
  split <;> split <;> omega

theorem or_rot (x y : Nat) (hy : y < 2) : (2 * x) ||| y = 2 * x + y := by
  have := Nat.two_pow_add_eq_or_of_lt (i := 1) (b := y) (by simpa using hy) x
  simpa using this.symm

theorem encodeRobloxFloat_toNat (f : F32) : (encodeRobloxFloat f).toNat =
    (2 * f.toNat) % 2 ^ 32 + f.toNat / 2 ^ 31 := by
  have hn := f.isLt
  simp only [encodeRobloxFloat, BitVec.toNat_or, BitVec.toNat_shiftLeft, toNat_shr,
    Nat.shiftLeft_eq]
  have e : f.toNat * 2 ^ 1 % 2 ^ 32 = 2 * (f.toNat % 2 ^ 31) := by omega
  rw [e, or_rot _ _ (by omega)]; omega

theorem decodeRobloxFloat_toNat (n : BitVec 32) : (decodeRobloxFloat n).toNat =
    n.toNat / 2 + n.toNat % 2 * 2 ^ 31 := by
  have hn := n.isLt
  simp only [decodeRobloxFloat, BitVec.toNat_or, BitVec.toNat_shiftLeft, toNat_shr]
  have e : n.toNat <<< 31 % 2 ^ 32 = (n.toNat % 2) <<< 31 := by
    simp only [Nat.shiftLeft_eq]; omega
  rw [e, or_shl _ _ 31 (by omega)]

theorem decode_encode_float (f : F32) : decodeRobloxFloat (encodeRobloxFloat f) = f := by
  apply BitVec.eq_of_toNat_eq
  have hn := f.isLt
  rw [decodeRobloxFloat_toNat, encodeRobloxFloat_toNat]
  rcases Nat.lt_or_ge f.toNat (2 ^ 31) with h | h
  · have : f.toNat / 2 ^ 31 = 0 := by omega
    rw [this]; omega
  · have : f.toNat / 2 ^ 31 = 1 := by omega
    rw [this]; omega

theorem encode_decode_float (n : BitVec 32) : encodeRobloxFloat (decodeRobloxFloat n) = n := by
  apply BitVec.eq_of_toNat_eq
  have hn := n.isLt
  rw [encodeRobloxFloat_toNat, decodeRobloxFloat_toNat]
  rcases Nat.mod_two_eq_zero_or_one n.toNat with h | h <;> rw [h] <;> omega

end Rbxl

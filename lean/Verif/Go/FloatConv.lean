import Verif.Go.DecimalLemmas
/-!
# Conversions between numeric types

The Go conversions `float64(x)`, `float32(x)`, `int32(x)`, ... in exact arithmetic. A finite number is a natural multiple
of the smallest positive number, as in `Verif.Go.Decimal`.
-/
namespace Go

/-- The bits of a `float64` without the sign. -/
def mag64 (f : F64) : Nat := f.toNat % 2 ^ 63
/-- The bits of a `float32` without the sign. -/
def mag32 (f : F32) : Nat := f.toNat % 2 ^ 31
/-- The sign of a `float64`. -/
def neg64 (f : F64) : Bool := decide (2 ^ 63 ≤ f.toNat)
/-- The sign of a `float32`. -/
def neg32 (f : F32) : Bool := decide (2 ^ 31 ≤ f.toNat)
/-- The `float64` with the given sign and bits. -/
def of64 (neg : Bool) (bits : Nat) : F64 := BitVec.ofNat 64 ((if neg then 2 ^ 63 else 0) + bits)
/-- The `float32` with the given sign and bits. -/
def of32 (neg : Bool) (bits : Nat) : F32 := BitVec.ofNat 32 ((if neg then 2 ^ 31 else 0) + bits)

/-- `float64(f)` for a `float32`. A NaN becomes quiet and keeps its payload, as the processors do. -/
def f32to64 (f : F32) : F64 :=
  of64 (neg32 f)
    (if fmt32.inf < mag32 f then fmt64.inf + 2 ^ 51 + mag32 f % 2 ^ 22 * 2 ^ 29
    else if mag32 f = fmt32.inf then fmt64.inf
    else fmt64.nearest (fmt32.value (mag32 f) * 2 ^ 925) 1)

/-- `float32(f)` for a `float64`: the nearest number, infinity if there is none. -/
def f64to32 (f : F64) : F32 :=
  of32 (neg64 f)
    (if fmt64.inf < mag64 f then fmt32.inf + 2 ^ 22 + mag64 f % 2 ^ 51 / 2 ^ 29
    else if mag64 f = fmt64.inf then fmt32.inf
    else min (fmt32.nearest (fmt64.value (mag64 f)) (2 ^ 925)) fmt32.inf)

/-- `float64(n)` for an integer. -/
def intToF64 (n : Int) : F64 := of64 (decide (n < 0)) (fmt64.nearest (n.natAbs * 2 ^ 1074) 1)

/-- `float32(n)` for an integer. -/
def intToF32 (n : Int) : F32 := of32 (decide (n < 0)) (fmt32.nearest (n.natAbs * 2 ^ 149) 1)

/-- The integer part of a finite number: the fraction is discarded. -/
def trunc64 (f : F64) : Int :=
  let n : Nat := fmt64.value (mag64 f) / 2 ^ 1074
  if neg64 f then -(n : Int) else n

/-- What the conversion of a floating point number to an integer type yields if the type cannot represent the number:
the language does not say. -/
structure Overflow where
  int : (w : Nat) → F64 → BitVec w
  uint : (w : Nat) → F64 → BitVec w

/-- `int32(f)` and the like (width `w`) for a `float64`. -/
def f64ToInt (O : Overflow) (w : Nat) (f : F64) : BitVec w :=
  if mag64 f < fmt64.inf ∧ -(2 ^ (w - 1) : Int) ≤ trunc64 f ∧ trunc64 f < (2 ^ (w - 1) : Int) then
    BitVec.ofInt w (trunc64 f)
  else O.int w f

/-- `uint32(f)` and the like (width `w`) for a `float64`. -/
def f64ToUint (O : Overflow) (w : Nat) (f : F64) : BitVec w :=
  if mag64 f < fmt64.inf ∧ 0 ≤ trunc64 f ∧ trunc64 f < (2 ^ w : Int) then
    BitVec.ofInt w (trunc64 f)
  else O.uint w f

/-! ## Exactness -/

theorem roundEven_one (a : Nat) : roundEven a 1 = a := by
  unfold roundEven
  rw [Nat.mod_one, if_pos (by omega), Nat.div_one]

theorem roundEven_mul (a b : Nat) (h : 0 < b) : roundEven (a * b) b = a := by
  unfold roundEven
  rw [Nat.mul_mod_left, if_pos (by omega), Nat.mul_div_cancel _ h]

/-- A number whose binary digits fit in the mantissa is represented exactly. -/
theorem nearest_exact (φ : FloatFmt) {m k : Nat} (hm : m < 2 ^ (φ.mb + 1)) :
    φ.value (φ.nearest (m * 2 ^ k) 1) = m * 2 ^ k := by
  generalize hn : m * 2 ^ k = n
  unfold FloatFmt.nearest
  simp only [Nat.div_one, Nat.one_mul]
  have hP : 0 < 2 ^ φ.mb := Nat.two_pow_pos _
  have hP2 : 2 ^ (φ.mb + 1) = 2 * 2 ^ φ.mb := by rw [Nat.pow_succ]; omega
  rcases Nat.eq_zero_or_pos (n.log2 - φ.mb) with hs | hs
  · rw [hs, Nat.zero_mul, Nat.zero_add, Nat.pow_zero, roundEven_one]
    have hlt : n < 2 ^ (φ.mb + 1) := by
      have h1 : n < 2 ^ (n.log2 + 1) := Nat.lt_log2_self
      exact Nat.lt_of_lt_of_le h1 (Nat.pow_le_pow_right (by omega) (by omega))
    unfold FloatFmt.value
    split
    · rename_i h0
      exact Nat.mod_eq_of_lt ((Nat.div_eq_zero_iff_lt hP).1 h0)
    · rename_i h0
      have h1 : n / 2 ^ φ.mb = 1 := by
        have h2 : n / 2 ^ φ.mb < 2 := (Nat.div_lt_iff_lt_mul hP).2 (by omega)
        have h3 : 0 < n / 2 ^ φ.mb := Nat.pos_of_ne_zero h0
        omega
      rw [h1, Nat.sub_self, Nat.pow_zero, Nat.mul_one]
      have := Nat.div_add_mod n (2 ^ φ.mb)
      rw [h1] at this
      omega
  · generalize hsd : n.log2 - φ.mb = s at hs
    have hl : n.log2 = φ.mb + s := by omega
    have hn0 : n ≠ 0 := by
      intro e
      rw [e, Nat.log2_zero] at hl
      omega
    have hlo : 2 ^ (φ.mb + s) ≤ n := hl ▸ Nat.log2_self_le hn0
    have hhi : n < 2 ^ (φ.mb + s + 1) := hl ▸ Nat.lt_log2_self
    have hks : s ≤ k := by
      false_or_by_contra
      rename_i hc
      have h1 : n < 2 ^ (φ.mb + 1) * 2 ^ k := hn ▸ Nat.mul_lt_mul_of_pos_right hm (Nat.two_pow_pos _)
      rw [← Nat.pow_add] at h1
      have h2 : 2 ^ (φ.mb + 1 + k) ≤ 2 ^ (φ.mb + s) := Nat.pow_le_pow_right (by omega) (by omega)
      omega
    obtain ⟨q, hq⟩ : ∃ q, n = q * 2 ^ s := ⟨m * 2 ^ (k - s), by
      rw [Nat.mul_assoc, ← Nat.pow_add, show k - s + s = k by omega, hn]⟩
    rw [hq, roundEven_mul _ _ (Nat.two_pow_pos _)]
    have hS : 0 < 2 ^ s := Nat.two_pow_pos _
    have hq1 : 2 ^ φ.mb ≤ q := by
      rw [hq, Nat.pow_add] at hlo
      exact Nat.le_of_mul_le_mul_right hlo hS
    have hq2 : q < 2 * 2 ^ φ.mb := by
      rw [hq, show φ.mb + s + 1 = (φ.mb + 1) + s by omega, Nat.pow_add, hP2] at hhi
      exact Nat.lt_of_mul_lt_mul_right hhi
    unfold FloatFmt.value
    have hd : (s * 2 ^ φ.mb + q) / 2 ^ φ.mb = s + 1 := by
      rw [Nat.add_comm, Nat.add_mul_div_right _ _ hP]
      have : q / 2 ^ φ.mb = 1 := by
        have h1 : q / 2 ^ φ.mb < 2 := (Nat.div_lt_iff_lt_mul hP).2 hq2
        have h2 : 1 ≤ q / 2 ^ φ.mb := (Nat.le_div_iff_mul_le hP).2 (by omega)
        omega
      omega
    have hr : (s * 2 ^ φ.mb + q) % 2 ^ φ.mb = q - 2 ^ φ.mb := by
      rw [Nat.add_comm, Nat.add_mul_mod_self_right]
      rw [Nat.mod_eq_sub_mod hq1, Nat.mod_eq_of_lt (by omega)]
    rw [hd, hr, if_neg (by omega), show s + 1 - 1 = s by omega, show 2 ^ φ.mb + (q - 2 ^ φ.mb) = q by omega]

theorem nearest_self (φ : FloatFmt) (bits : Nat) {b : Nat} (hb : 0 < b) : φ.nearest (φ.value bits * b) b = bits := by
  have h : 0 < b * 2 ^ (bits / 2 ^ φ.mb - 1) := Nat.mul_pos hb (Nat.two_pow_pos _)
  exact nearest_near φ hb (by omega) (by omega)

/-- The number has at most `mb + 1` significant binary digits. -/
theorem value_digits (φ : FloatFmt) (bits : Nat) : ∃ m k, φ.value bits = m * 2 ^ k ∧ m < 2 ^ (φ.mb + 1) := by
  have hP : 0 < 2 ^ φ.mb := Nat.two_pow_pos _
  have hr := Nat.mod_lt bits hP
  have hP2 : 2 ^ (φ.mb + 1) = 2 * 2 ^ φ.mb := by rw [Nat.pow_succ]; omega
  unfold FloatFmt.value
  split
  · exact ⟨bits % 2 ^ φ.mb, 0, by omega, by omega⟩
  · exact ⟨_, _, rfl, by omega⟩

theorem value_le_max (φ : FloatFmt) (he : 2 ≤ φ.eb) {bits : Nat} (h : bits < φ.inf) : φ.value bits ≤ φ.max := by
  rw [max_eq φ he]
  have hP : 0 < 2 ^ φ.mb := Nat.two_pow_pos _
  have hr := Nat.mod_lt bits hP
  have hP2 : 2 ^ (φ.mb + 1) = 2 * 2 ^ φ.mb := by rw [Nat.pow_succ]; omega
  have hq : bits / 2 ^ φ.mb < 2 ^ φ.eb - 1 := (Nat.div_lt_iff_lt_mul hP).2 h
  have h1 : 1 ≤ 2 ^ (2 ^ φ.eb - 3) := Nat.one_le_two_pow
  unfold FloatFmt.value
  split
  · calc _ ≤ (2 ^ (φ.mb + 1) - 1) * 1 := by omega
      _ ≤ _ := Nat.mul_le_mul_left _ h1
  · refine Nat.mul_le_mul (by omega) (Nat.pow_le_pow_right (by omega) (by omega))

theorem mag64_of {neg : Bool} {n : Nat} (h : n < 2 ^ 63) : mag64 (of64 neg n) = n := by
  unfold mag64 of64
  rw [BitVec.toNat_ofNat]
  cases neg <;> simp <;> omega
theorem neg64_of {neg : Bool} {n : Nat} (h : n < 2 ^ 63) : neg64 (of64 neg n) = neg := by
  unfold neg64 of64
  rw [BitVec.toNat_ofNat]
  cases neg <;> simp <;> omega
theorem of32_self (f : F32) : of32 (neg32 f) (mag32 f) = f := by
  apply BitVec.eq_of_toNat_eq
  have := f.isLt
  unfold of32 neg32 mag32
  rw [BitVec.toNat_ofNat]
  by_cases h : 2 ^ 31 ≤ f.toNat
  · simp only [h, decide_true, if_true]; omega
  · simp only [h, decide_false]; simp; omega
theorem of64_self (f : F64) : of64 (neg64 f) (mag64 f) = f := by
  apply BitVec.eq_of_toNat_eq
  have := f.isLt
  unfold of64 neg64 mag64
  rw [BitVec.toNat_ofNat]
  by_cases h : 2 ^ 63 ≤ f.toNat
  · simp only [h, decide_true, if_true]; omega
  · simp only [h, decide_false]; simp; omega

theorem inf64 : fmt64.inf = 0x7ff0000000000000 := by decide
theorem inf32 : fmt32.inf = 0x7f800000 := by decide
theorem max64_big : fmt32.max * 2 ^ 925 ≤ fmt64.max := by decide +kernel

theorem widen_lt {n : Nat} (h : n < fmt32.inf) : fmt64.nearest (fmt32.value n * 2 ^ 925) 1 < fmt64.inf := by
  apply nearest_finite fmt64 (by decide) (by omega)
  rw [Nat.mul_one]
  exact Nat.le_trans (Nat.mul_le_mul_right _ (value_le_max fmt32 (by decide) h)) max64_big

/-- Widening a number and narrowing it again changes nothing; a NaN becomes quiet. -/
theorem narrow_widen (f : F32) :
    f64to32 (f32to64 f) = if fmt32.inf < mag32 f then f ||| 0x400000#32 else f := by
  have hm : mag32 f < 2 ^ 31 := Nat.mod_lt _ (by decide)
  unfold f32to64
  rw [inf32, inf64]
  by_cases h1 : 0x7f800000 < mag32 f
  · rw [if_pos h1, if_pos h1]
    have hlt : 0x7ff0000000000000 + 2 ^ 51 + mag32 f % 2 ^ 22 * 2 ^ 29 < 2 ^ 63 := by omega
    unfold f64to32
    rw [neg64_of hlt, mag64_of hlt, inf64, inf32, if_pos (by omega)]
    rw [show (0x7ff0000000000000 + 2 ^ 51 + mag32 f % 2 ^ 22 * 2 ^ 29) % 2 ^ 51 / 2 ^ 29 = mag32 f % 2 ^ 22 by omega]
    have e : ∀ neg : Bool, of32 neg (0x7f800000 + 2 ^ 22 + mag32 f % 2 ^ 22) = of32 neg (mag32 f) ||| 0x400000#32 := by
      intro neg
      have hb : ∀ x : BitVec 32, 0x7f800000 < x.toNat % 2 ^ 31 →
          (x ||| 0x400000#32).toNat = x.toNat / 2 ^ 23 * 2 ^ 23 + 2 ^ 22 + x.toNat % 2 ^ 22 := by
        intro x _
        have h2 : x.toNat = x.toNat / 2 ^ 22 * 2 ^ 22 + x.toNat % 2 ^ 22 := by omega
        have h3 : x.toNat ||| 0x400000 = (x.toNat / 2 ^ 22 ||| 1) * 2 ^ 22 + x.toNat % 2 ^ 22 := by
          apply Nat.eq_of_testBit_eq
          intro i
          rw [Nat.testBit_or, Nat.mul_comm, Nat.testBit_two_pow_mul_add _ (Nat.mod_lt _ (by decide)),
            Nat.testBit_mod_two_pow]
          by_cases hi : i < 22
          · simp only [hi, decide_true, Bool.true_and, if_true]
            have : Nat.testBit 0x400000 i = false := by
              rw [show 0x400000 = 2 ^ 22 by decide, Nat.testBit_two_pow]
              simp; omega
            rw [this, Bool.or_false]
          · simp only [hi, if_false]
            rw [Nat.testBit_or, Nat.testBit_div_two_pow, show i - 22 + 22 = i by omega]
            congr 1
            rw [show 0x400000 = 2 ^ 22 by decide, Nat.testBit_two_pow, show 1 = 2 ^ 0 by decide, Nat.testBit_two_pow]
            simp; omega
        have h4 : x.toNat / 2 ^ 22 ||| 1 = x.toNat / 2 ^ 23 * 2 + 1 := by
          have : x.toNat / 2 ^ 22 / 2 = x.toNat / 2 ^ 23 := by omega
          generalize x.toNat / 2 ^ 22 = y at *
          have := Nat.or_div_two_pow (a := y) (b := 1) (n := 1)
          have := Nat.or_mod_two_pow (a := y) (b := 1) (n := 1)
          have h5 : (y % 2 ||| 1) = 1 := by rcases Nat.mod_two_eq_zero_or_one y with e | e <;> rw [e] <;> rfl
          simp at *
          omega
        rw [BitVec.toNat_or, show (0x400000#32).toNat = 0x400000 by rfl, h3, h4]
        omega
      apply BitVec.eq_of_toNat_eq
      have hx : (of32 neg (mag32 f)).toNat = (if neg then 2 ^ 31 else 0) + mag32 f := by
        unfold of32; rw [BitVec.toNat_ofNat]; cases neg <;> simp <;> omega
      rw [hb _ (by rw [hx]; cases neg <;> simp <;> omega), hx]
      unfold of32; rw [BitVec.toNat_ofNat]
      cases neg <;> simp <;> omega
    rw [e, of32_self]
  · rw [if_neg h1, if_neg h1]
    by_cases h2 : mag32 f = 0x7f800000
    · rw [if_pos h2]
      unfold f64to32
      rw [neg64_of (by decide), mag64_of (by decide), inf64, inf32, if_neg (by decide), if_pos rfl, ← h2, of32_self]
    · rw [if_neg h2]
      have h3 : mag32 f < fmt32.inf := by rw [inf32]; omega
      have hw := widen_lt h3
      have hlt : fmt64.nearest (fmt32.value (mag32 f) * 2 ^ 925) 1 < 2 ^ 63 :=
        Nat.lt_of_lt_of_le hw (by decide)
      unfold f64to32
      rw [neg64_of hlt, mag64_of hlt, if_neg (by omega), if_neg (by omega)]
      obtain ⟨m, k, hv, hm⟩ := value_digits fmt32 (mag32 f)
      have hx : fmt64.value (fmt64.nearest (fmt32.value (mag32 f) * 2 ^ 925) 1) = fmt32.value (mag32 f) * 2 ^ 925 := by
        rw [hv, Nat.mul_assoc, ← Nat.pow_add]
        exact nearest_exact fmt64 (Nat.lt_of_lt_of_le hm (by decide))
      rw [hx, nearest_self fmt32 _ (Nat.two_pow_pos _), Nat.min_eq_left (by omega), of32_self]

/-- An integer of at most 53 significant binary digits, below `2 ^ 64`, survives the conversion to `float64`. -/
theorem trunc_intToF64 {n : Int} (hr : n.natAbs ≤ 2 ^ 64) (h : ∃ m k, n.natAbs = m * 2 ^ k ∧ m < 2 ^ 53) :
    mag64 (intToF64 n) < fmt64.inf ∧ trunc64 (intToF64 n) = n := by
  obtain ⟨m, k, hn, hm⟩ := h
  have hw : fmt64.nearest (n.natAbs * 2 ^ 1074) 1 < fmt64.inf := by
    apply nearest_finite fmt64 (by decide) (by omega)
    rw [Nat.mul_one]
    exact Nat.le_trans (Nat.mul_le_mul_right _ hr) (by decide +kernel)
  have hlt : fmt64.nearest (n.natAbs * 2 ^ 1074) 1 < 2 ^ 63 := Nat.lt_of_lt_of_le hw (by decide)
  have hx : fmt64.value (fmt64.nearest (n.natAbs * 2 ^ 1074) 1) = n.natAbs * 2 ^ 1074 := by
    rw [hn, Nat.mul_assoc, ← Nat.pow_add]
    exact nearest_exact fmt64 hm
  unfold trunc64 intToF64
  rw [mag64_of hlt, neg64_of hlt, hx, Nat.mul_div_cancel _ (Nat.two_pow_pos _)]
  refine ⟨hw, ?_⟩
  by_cases h0 : n < 0
  · simp only [h0, decide_true, if_true]; omega
  · simp only [h0, decide_false]; simp; omega

theorem small_digits {n : Nat} (h : n ≤ 2 ^ 53) : ∃ m k, n = m * 2 ^ k ∧ m < 2 ^ 53 := by
  rcases Nat.lt_or_eq_of_le h with h | h
  · exact ⟨n, 0, by omega, h⟩
  · exact ⟨1, 53, by omega, by decide⟩

theorem f64ToInt_back (O : Overflow) {w : Nat} (hw : 0 < w) (v : BitVec w) (h64 : w ≤ 64)
    (h : ∃ m k, v.toInt.natAbs = m * 2 ^ k ∧ m < 2 ^ 53) : f64ToInt O w (intToF64 v.toInt) = v := by
  have hr : v.toInt.natAbs ≤ 2 ^ 64 := by
    have h1 := BitVec.le_toInt v
    have h2 := BitVec.toInt_lt (x := v)
    have h3 : (2 : Nat) ^ (w - 1) ≤ 2 ^ 64 := Nat.pow_le_pow_right (by omega) (by omega)
    have h4 : ((2 : Int) ^ (w - 1)) = ((2 ^ (w - 1) : Nat) : Int) := by simp
    omega
  obtain ⟨h1, h2⟩ := trunc_intToF64 hr h
  unfold f64ToInt
  rw [h2, if_pos ⟨h1, BitVec.le_toInt v, BitVec.toInt_lt⟩, BitVec.ofInt_toInt]

theorem f64ToUint_back (O : Overflow) {w : Nat} (v : BitVec w) (h64 : w ≤ 64)
    (h : ∃ m k, v.toNat = m * 2 ^ k ∧ m < 2 ^ 53) : f64ToUint O w (intToF64 v.toNat) = v := by
  have hl := v.isLt
  have h3 : (2 : Nat) ^ w ≤ 2 ^ 64 := Nat.pow_le_pow_right (by omega) (by omega)
  obtain ⟨h1, h2⟩ := trunc_intToF64 (n := (v.toNat : Int)) (by simp; omega) (by simpa using h)
  unfold f64ToUint
  rw [h2, if_pos ⟨h1, by omega, by have h4 : ((2 : Int) ^ w) = ((2 ^ w : Nat) : Int) := by simp
                                   omega⟩]
  simp

end Go

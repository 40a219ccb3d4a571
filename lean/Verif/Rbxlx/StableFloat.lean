import Verif.Rbxlx.GoFloat
/-!
# Writing a number that was read from few digits gives the same digits

A number is written with `p` digits and read; the number read is not the number written, but it is written in the same
way, if the format is finer than `p` digits, with at most one exception, among the smallest numbers.
-/
namespace Go
open Rbxlx

/-- The value of the bits made of an exponent and a mantissa. -/
theorem value_bits (φ : FloatFmt) {s q : Nat} (hq : q ≤ 2 * 2 ^ φ.mb) (hs : s = 0 ∨ 2 ^ φ.mb ≤ q) :
    φ.value (s * 2 ^ φ.mb + q) = q * 2 ^ s := by
  unfold FloatFmt.value
  generalize hP : 2 ^ φ.mb = P at *
  have hP0 : 0 < P := by rw [← hP]; exact Nat.two_pow_pos _
  by_cases h1 : q < P
  · have : s = 0 := by omega
    subst this
    have e : 0 * P + q = q := by omega
    rw [e, Nat.div_eq_of_lt h1, Nat.mod_eq_of_lt h1]
    simp
  · by_cases h2 : q < 2 * P
    · have e : s * P + q = (q - P) + P * (s + 1) := by
        have : P * (s + 1) = s * P + P := by ring
        omega
      rw [e, Nat.add_mul_div_left _ _ hP0, Nat.add_mul_mod_self_left, Nat.div_eq_of_lt (by omega),
        Nat.mod_eq_of_lt (by omega)]
      rw [if_neg (by omega), show 0 + (s + 1) - 1 = s by omega, show P + (q - P) = q by omega]
    · have : q = 2 * P := by omega
      subst this
      have e : s * P + 2 * P = 0 + P * (s + 2) := by ring
      rw [e, Nat.add_mul_div_left _ _ hP0, Nat.add_mul_mod_self_left, Nat.zero_div, Nat.zero_mod]
      rw [if_neg (by omega), show 0 + (s + 2) - 1 = s + 1 by omega, Nat.pow_succ]
      ring

/-- The nearest number is at most half a step away; the step is 1, or small compared with the number. -/
theorem nearest_bound (φ : FloatFmt) (a : Nat) {b : Nat} (hb : 0 < b) :
    ∃ s, 2 * a ≤ 2 * (φ.value (φ.nearest a b) * b) + b * 2 ^ s ∧
      2 * (φ.value (φ.nearest a b) * b) ≤ 2 * a + b * 2 ^ s ∧ (s = 0 ∨ 2 ^ φ.mb * (b * 2 ^ s) ≤ a) := by
  simp only [FloatFmt.nearest]
  refine ⟨(a / b).log2 - φ.mb, ?_⟩
  have hsz : a / b < 2 ^ (φ.mb + 1) * 2 ^ ((a / b).log2 - φ.mb) := by
    by_cases hn : a / b = 0
    · rw [hn]
      exact Nat.mul_pos (Nat.two_pow_pos _) (Nat.two_pow_pos _)
    · rw [← Nat.pow_add]
      refine (Nat.log2_lt hn).1 ?_
      omega
  have hlow : (a / b).log2 - φ.mb = 0 ∨ 2 ^ φ.mb * 2 ^ ((a / b).log2 - φ.mb) ≤ a / b := by
    by_cases h : (a / b).log2 - φ.mb = 0
    · exact .inl h
    · right
      have hn : a / b ≠ 0 := by
        intro e; rw [e] at h; simp at h
      rw [← Nat.pow_add]
      refine (Nat.le_log2 hn).1 ?_
      omega
  generalize (a / b).log2 - φ.mb = s at *
  have hS : 0 < 2 ^ s := Nat.two_pow_pos s
  have hta' : a < (a / b + 1) * b := by
    have := Nat.div_add_mod a b
    have := Nat.mod_lt a hb
    nlinarith
  have hta : a / b * b ≤ a := Nat.div_mul_le_self a b
  have hup : roundEven a (b * 2 ^ s) ≤ 2 * 2 ^ φ.mb := by
    refine roundEven_le (Nat.mul_pos hb hS) ?_
    have h2 : (a / b + 1) * b ≤ 2 ^ (φ.mb + 1) * 2 ^ s * b := Nat.mul_le_mul_right b hsz
    rw [Nat.pow_succ] at h2
    nlinarith
  have hlo : s = 0 ∨ 2 ^ φ.mb * (b * 2 ^ s) ≤ a := by
    rcases hlow with h | h
    · exact .inl h
    · right
      have := Nat.mul_le_mul_right b h
      nlinarith
  have hlo' : s = 0 ∨ 2 ^ φ.mb ≤ roundEven a (b * 2 ^ s) := by
    rcases hlo with h | h
    · exact .inl h
    · right
      have h1 := roundEven_mono (b := b * 2 ^ s) (Nat.mul_pos hb hS) h
      rwa [roundEven_near (m := 2 ^ φ.mb) (by have := Nat.mul_pos hb hS; omega) (by have := Nat.mul_pos hb hS; omega)] at h1
  rw [value_bits φ hup hlo']
  obtain ⟨h1, h2⟩ := roundEven_bound a (Nat.mul_pos hb hS)
  have e : roundEven a (b * 2 ^ s) * 2 ^ s * b = roundEven a (b * 2 ^ s) * (b * 2 ^ s) := by ring
  rw [e]
  exact ⟨h1, h2, hlo⟩

/-! ## Digits -/

theorem decimalAux_fuel : ∀ (f g n : Nat), n < f → n < g → decimalAux f n = decimalAux g n
  | 0, _, _, h, _ => by omega
  | _, 0, _, _, h => by omega
  | f + 1, g + 1, n, h, h' => by
    simp only [decimalAux]
    split
    · rfl
    · rw [decimalAux_fuel f g (n / 10) (by omega) (by omega)]

theorem formatUint_ten {n : Nat} (h0 : 0 < n) : formatUint (n * 10) = formatUint n ++ [48#8] := by
  unfold formatUint
  rw [decimalAux, if_neg (by omega), Nat.mul_div_cancel _ (by decide), Nat.mul_mod_left,
    decimalAux_fuel (n * 10) (n + 1) n (by omega) (by omega)]
  rfl

theorem strip_zero (s : Bytes) : ((s ++ [48#8]).reverse.dropWhile fun c => decide (c = 48#8)).reverse =
    (s.reverse.dropWhile fun c => decide (c = 48#8)).reverse := by
  rw [List.reverse_append]
  simp

/-- The digits of `m * 10 ^ e`, and the position of the decimal point. -/
def pointed (m e unit : Nat) : Bytes × Int :=
  (((formatUint m).reverse.dropWhile fun c => decide (c = 48#8)).reverse, (e : Int) - unit + (formatUint m).length)

theorem pointed_ten {m : Nat} (h : 0 < m) (e unit : Nat) : pointed (m * 10) e unit = pointed m (e + 1) unit := by
  unfold pointed
  rw [formatUint_ten h, strip_zero, List.length_append]
  simp only [List.length_singleton, Prod.mk.injEq, true_and]
  omega

theorem roundDigits_pointed {a p unit : Nat} (hj : p ≤ log10 a + 1) :
    roundDigits a p unit = pointed (roundEven a (10 ^ (log10 a + 1 - p))) (log10 a + 1 - p) unit := by
  simp only [roundDigits, pointed, Prod.mk.injEq, true_and]
  omega

/-- Numbers in decimal steps are not numbers in binary steps. -/
theorem pow_ten_ne {e u : Nat} (hu : 0 < u) : 10 ^ e ≠ 5 ^ u := by
  intro h
  rcases Nat.eq_zero_or_pos e with rfl | he
  · have : 5 ^ 1 ≤ 5 ^ u := Nat.pow_le_pow_right (by decide) hu
    omega
  · have h2 : 10 ^ e % 2 = 0 := by
      obtain ⟨k, rfl⟩ : ∃ k, e = k + 1 := ⟨e - 1, by omega⟩
      rw [Nat.pow_succ]; omega
    have h3 : 5 ^ u % 2 = 1 := by rw [Nat.pow_mod]; simp
    omega

theorem value_small (φ : FloatFmt) {bits : Nat} (h : φ.value bits < 2 ^ φ.mb) : bits = φ.value bits := by
  unfold FloatFmt.value at *
  split at h
  · rename_i h1
    rw [if_pos h1]
    have := Nat.div_add_mod bits (2 ^ φ.mb)
    rw [h1] at this
    omega
  · have h2 : 1 ≤ 2 ^ (bits / 2 ^ φ.mb - 1) := Nat.two_pow_pos _
    have := Nat.mul_le_mul (Nat.le_add_right (2 ^ φ.mb) (bits % 2 ^ φ.mb)) h2
    omega

/-- The exception: a number just above a power of ten, which is rounded to this power of ten, for which the number just
below is read; the steps there are between the last digit of the one and that of the other. -/
def Corner (φ : FloatFmt) (p bits : Nat) : Prop :=
  ∃ k, 10 ^ k < 5 ^ φ.unit ∧ 5 ^ φ.unit < 10 ^ (k + 1) ∧ 10 ^ (p + k) ≤ φ.value bits * 5 ^ φ.unit ∧
    2 * (φ.value bits * 5 ^ φ.unit) ≤ 2 * 10 ^ (p + k) + 10 ^ (k + 1) ∧
    φ.value (φ.nearest (10 ^ (p + k)) (5 ^ φ.unit)) * 5 ^ φ.unit < 10 ^ (p + k)

theorem digits_stable {φ : FloatFmt} {p : Nat} (hu : Usable φ p) (hun : 0 < φ.unit) (hp : 10 ^ p < 2 ^ φ.mb)
    {bits : Nat} (h0 : 0 < bits) (hc : ¬ Corner φ p bits) :
    0 < readBack φ p bits ∧ roundDigits (φ.value (readBack φ p bits) * 5 ^ φ.unit) p φ.unit =
      roundDigits (φ.value bits * 5 ^ φ.unit) p φ.unit := by
  have hb : 0 < 5 ^ φ.unit := Nat.pow_pos (by decide)
  have ha : 0 < φ.value bits * 5 ^ φ.unit := Nat.mul_pos (value_pos φ h0) hb
  have hen := hu.enough h0
  obtain ⟨-, -, -, d4, d5⟩ := roundDigits_spec φ ha hu.prec hen
  obtain ⟨l1, l2⟩ := log10_spec ha
  have hT : 0 < 10 ^ (log10 (φ.value bits * 5 ^ φ.unit) + 1 - p) := Nat.pow_pos (by decide)
  obtain ⟨r1, r2⟩ := roundEven_bound (φ.value bits * 5 ^ φ.unit) hT
  have hen' := hen
  rw [roundDigits_pointed hen]
  unfold readBack
  have hTb : 10 ^ (log10 (φ.value bits * 5 ^ φ.unit) + 1 - p) ≠ 5 ^ φ.unit := pow_ten_ne hun
  have hpp := hu.prec
  unfold Corner at hc
  generalize hj : log10 (φ.value bits * 5 ^ φ.unit) = j at *
  generalize hm : roundEven (φ.value bits * 5 ^ φ.unit) (10 ^ (j + 1 - p)) = m at *
  have e1 : 10 ^ j = 10 ^ (p - 1) * 10 ^ (j + 1 - p) := by rw [← Nat.pow_add]; congr 1; omega
  have e2 : 10 ^ (j + 1) = 10 ^ p * 10 ^ (j + 1 - p) := by rw [← Nat.pow_add]; congr 1; omega
  have e3 : 10 ^ p = 10 ^ (p - 1) * 10 := by rw [← Nat.pow_succ]; congr 1; omega
  have hD1 : 10 ^ j ≤ m * 10 ^ (j + 1 - p) := by rw [e1]; exact Nat.mul_le_mul_right _ d4
  have hD2 : m * 10 ^ (j + 1 - p) ≤ 10 ^ (j + 1) := by rw [e2]; exact Nat.mul_le_mul_right _ d5
  rcases Nat.lt_or_gt_of_ne hTb with hlt | hgt
  · -- the digits are finer than the numbers: the number is read
    have hv : φ.value bits < 2 ^ φ.mb := by
      by_contra hge
      have h1 : (10 ^ p + 1) * 5 ^ φ.unit ≤ φ.value bits * 5 ^ φ.unit := Nat.mul_le_mul_right _ (by omega)
      have h2 : 10 ^ p * 10 ^ (j + 1 - p) ≤ 10 ^ p * 5 ^ φ.unit := Nat.mul_le_mul_left _ (by omega)
      nlinarith
    have hbits := value_small φ hv
    have hs : (m * 10 ^ (j + 1 - p) / 5 ^ φ.unit).log2 - φ.mb = 0 := by
      refine log2_small ?_
      rw [Nat.div_lt_iff_lt_mul hb, Nat.pow_succ]
      have h2 : 10 ^ p * 10 ^ (j + 1 - p) < 2 ^ φ.mb * 5 ^ φ.unit := Nat.mul_lt_mul_of_lt_of_lt hp hlt
      have h3 : 2 ^ φ.mb * 5 ^ φ.unit ≤ 2 ^ φ.mb * 2 * 5 ^ φ.unit := Nat.mul_le_mul_right _ (by omega)
      omega
    have hn : φ.nearest (m * 10 ^ (j + 1 - p)) (5 ^ φ.unit) = bits := by
      simp only [FloatFmt.nearest, hs, Nat.pow_zero, Nat.mul_one, Nat.zero_mul, Nat.zero_add]
      rw [hbits]
      exact roundEven_near (by omega) (by omega)
    rw [hn]
    refine ⟨h0, ?_⟩
    rw [roundDigits_pointed (by rw [hj]; exact hen'), hj, hm]
  · -- the numbers are finer than the digits
    obtain ⟨s, n1, n2, n3⟩ := nearest_bound φ (m * 10 ^ (j + 1 - p)) hb
    have hstep : 5 ^ φ.unit * 2 ^ s < 10 ^ (j + 1 - p) := by
      rcases n3 with rfl | h3
      · simpa using hgt
      · by_contra hge
        have h4 : 2 ^ φ.mb * 10 ^ (j + 1 - p) ≤ 2 ^ φ.mb * (5 ^ φ.unit * 2 ^ s) := Nat.mul_le_mul_left _ (by omega)
        have h5 : 10 ^ p * 10 ^ (j + 1 - p) < 2 ^ φ.mb * 10 ^ (j + 1 - p) := Nat.mul_lt_mul_of_pos_right hp hT
        omega
    have hep : 0 < j + 1 - p := by
      rcases Nat.eq_zero_or_pos (j + 1 - p) with h | h
      · rw [h] at hgt; simp at hgt
      · exact h
    have e4 : 10 ^ (j + 1 - p) = 10 ^ (j - p) * 10 := by rw [← Nat.pow_succ]; congr 1; omega
    have hTj : 10 ^ (j + 1 - p) ≤ 10 ^ j := Nat.pow_le_pow_right (by decide) (by omega)
    have hpos : 0 < φ.nearest (m * 10 ^ (j + 1 - p)) (5 ^ φ.unit) := by
      rcases Nat.eq_zero_or_pos (φ.nearest (m * 10 ^ (j + 1 - p)) (5 ^ φ.unit)) with h | h
      · exfalso
        rw [h] at n1
        have : φ.value 0 = 0 := by simp [FloatFmt.value]
        rw [this] at n1
        omega
      · exact h
    have ha' : 0 < φ.value (φ.nearest (m * 10 ^ (j + 1 - p)) (5 ^ φ.unit)) * 5 ^ φ.unit :=
      Nat.mul_pos (value_pos φ hpos) hb
    have hen2 := hu.enough hpos
    refine ⟨hpos, ?_⟩
    rw [roundDigits_pointed hen2]
    obtain ⟨k1, k2⟩ := log10_spec ha'
    rcases Nat.lt_or_ge (φ.value (φ.nearest (m * 10 ^ (j + 1 - p)) (5 ^ φ.unit)) * 5 ^ φ.unit) (10 ^ j) with hlow | hlow
    · -- the number read is below the power of ten
      have hm1 : m = 10 ^ (p - 1) := by
        by_contra hne
        have h6 : (10 ^ (p - 1) + 1) * 10 ^ (j + 1 - p) ≤ m * 10 ^ (j + 1 - p) := Nat.mul_le_mul_right _ (by omega)
        rw [Nat.add_mul] at h6
        omega
      have hDj : m * 10 ^ (j + 1 - p) = 10 ^ j := by rw [hm1, e1]
      have e5 : 10 ^ j = 10 ^ p * 10 ^ (j - p) := by rw [← Nat.pow_add]; congr 1; omega
      have hTp : 0 < 10 ^ (j - p) := Nat.pow_pos (by decide)
      have hfine : 5 ^ φ.unit * 2 ^ s < 10 ^ (j - p) := by
        rcases n3 with rfl | h3
        · by_contra hge
          apply hc
          rw [Nat.pow_zero, Nat.mul_one] at hge
          have hne : 10 ^ (j - p) ≠ 5 ^ φ.unit := pow_ten_ne hun
          have ejp : p + (j - p) = j := by omega
          have ejp2 : j - p + 1 = j + 1 - p := by omega
          refine ⟨j - p, by omega, by rw [ejp2]; exact hgt, by rw [ejp]; exact l1, ?_, ?_⟩
          · rw [ejp, ejp2, ← hDj]; exact r1
          · rw [ejp]; rw [hDj] at hlow; exact hlow
        · by_contra hge
          have h4 : 2 ^ φ.mb * 10 ^ (j - p) ≤ 2 ^ φ.mb * (5 ^ φ.unit * 2 ^ s) := Nat.mul_le_mul_left _ (by omega)
          have h5 : 10 ^ p * 10 ^ (j - p) < 2 ^ φ.mb * 10 ^ (j - p) := Nat.mul_lt_mul_of_pos_right hp hTp
          omega
      rw [hDj] at n1 n2 hlow k1 k2 ⊢
      generalize φ.value (φ.nearest (10 ^ j) (5 ^ φ.unit)) * 5 ^ φ.unit = a' at *
      have e6 : 10 ^ j = 10 ^ (j - 1) * 10 := by rw [← Nat.pow_succ]; congr 1; omega
      have hjp : 10 ^ (j - p) ≤ 10 ^ (j - 1) := Nat.pow_le_pow_right (by decide) (by omega)
      have hl : log10 a' = j - 1 := log10_unique (by omega) (by rw [show j - 1 + 1 = j by omega]; exact hlow)
      rw [hl, show j - 1 + 1 - p = j - p by omega, roundEven_near (m := 10 ^ p) (by omega) (by omega), hm1, e3,
        pointed_ten (Nat.pow_pos (by decide)), show j - p + 1 = j + 1 - p by omega]
    · generalize φ.value (φ.nearest (m * 10 ^ (j + 1 - p)) (5 ^ φ.unit)) * 5 ^ φ.unit = a' at *
      rcases Nat.lt_or_ge a' (10 ^ (j + 1)) with hup | hup
      · have hl : log10 a' = j := log10_unique hlow hup
        rw [hl, roundEven_near (m := m) (by omega) (by omega)]
      · have hm1 : m = 10 ^ p := by
          by_contra hne
          have h6 : (m + 1) * 10 ^ (j + 1 - p) ≤ 10 ^ p * 10 ^ (j + 1 - p) := Nat.mul_le_mul_right _ (by omega)
          rw [Nat.add_mul] at h6
          omega
        have hDj : m * 10 ^ (j + 1 - p) = 10 ^ (j + 1) := by rw [hm1, e2]
        have e6 : 10 ^ (j + 1 + 1) = 10 ^ (j + 1) * 10 := Nat.pow_succ ..
        have e7 : 10 ^ (j + 1) = 10 ^ j * 10 := Nat.pow_succ ..
        have e8 : 10 ^ (j + 1 + 1 - p) = 10 ^ (j + 1 - p) * 10 := by rw [← Nat.pow_succ]; congr 1; omega
        have e9 : 10 ^ (p - 1) * 10 ^ (j + 1 + 1 - p) = 10 ^ (j + 1) := by rw [← Nat.pow_add]; congr 1; omega
        have hl : log10 a' = j + 1 := log10_unique hup (by omega)
        rw [hl, roundEven_near (m := 10 ^ (p - 1)) (by omega) (by omega), hm1, e3,
          pointed_ten (Nat.pow_pos (by decide)), show j + 1 - p + 1 = j + 1 + 1 - p by omega]

/-! ## The formats -/

/-- The same text. -/
theorem format_stable {φ : FloatFmt} {p : Nat} (hu : Usable φ p) (hun : 0 < φ.unit) (hp : 10 ^ p < 2 ^ φ.mb)
    (neg : Bool) {bits : Nat} (h0 : 0 < bits) (hb : bits < φ.inf) (hr : readBack φ p bits < φ.inf)
    (hc : ¬ Corner φ p bits) : φ.format p neg (readBack φ p bits) = φ.format p neg bits := by
  obtain ⟨h1, h2⟩ := digits_stable hu hun hp h0 hc
  have z : ∀ n, 0 < n → n < φ.inf → φ.format p neg n = (if neg then [45#8] else []) ++
      layoutG p (roundDigits (φ.value n * 5 ^ φ.unit) p φ.unit).1
        (roundDigits (φ.value n * 5 ^ φ.unit) p φ.unit).2 := by
    intro n a b
    have z1 : ¬ φ.inf < n := by omega
    have z2 : ¬ n = φ.inf := by omega
    have z3 : ¬ n = 0 := by omega
    simp only [FloatFmt.format, z1, z2, z3, if_false]
  rw [z _ h1 hr, z _ h0 hb, h2]

theorem corner_k {φ : FloatFmt} {k K : Nat} (h1 : 10 ^ k < 5 ^ φ.unit) (h2 : 5 ^ φ.unit < 10 ^ (k + 1))
    (h3 : 10 ^ K < 5 ^ φ.unit) (h4 : 5 ^ φ.unit < 10 ^ (K + 1)) : k = K := by
  have a := (Nat.pow_lt_pow_iff_right (by decide : 1 < 10)).1 (Nat.lt_trans h1 h4)
  have b := (Nat.pow_lt_pow_iff_right (by decide : 1 < 10)).1 (Nat.lt_trans h3 h2)
  omega

theorem no_corner32 (bits : Nat) : ¬ Corner fmt32 6 bits := by
  rintro ⟨k, h1, h2, -, -, h5⟩
  have := corner_k h1 h2 (K := 104) (by decide +kernel) (by decide +kernel)
  subst this
  exact absurd h5 (by decide +kernel)

theorem corner64 {bits : Nat} (h : Corner fmt64 9 bits) : bits = 202402254 := by
  obtain ⟨k, h1, h2, h3, h4, -⟩ := h
  have := corner_k h1 h2 (K := 750) (by decide +kernel) (by decide +kernel)
  subst this
  have a1 : 202402253 * 5 ^ fmt64.unit < 10 ^ (9 + 750) := by decide +kernel
  have a2 : 2 * 10 ^ (9 + 750) + 10 ^ (750 + 1) < 2 * (202402255 * 5 ^ fmt64.unit) := by decide +kernel
  have hb : 0 < 5 ^ fmt64.unit := by decide +kernel
  have b1 : 202402253 < fmt64.value bits := (Nat.mul_lt_mul_right hb).1 (by omega)
  have b2 : fmt64.value bits < 202402255 := (Nat.mul_lt_mul_right hb).1 (by omega)
  have e := value_small fmt64 (bits := bits) (by
    have : fmt64.value bits < 202402255 := b2
    have h' : (202402255 : Nat) ≤ 2 ^ fmt64.mb := by decide
    omega)
  omega

end Go

namespace Rbxlx
open Go

theorem stable32_9 (f : F32) : goFloat.format32 9 (back32 goFloat 9 f) = goFloat.format32 9 f := by
  rw [back32_exact]
  split
  · rename_i h
    simp only [goFloat]
    rw [format_nan fmt32 9 _ (n := f.toNat % 2 ^ 31) (by have : fmt32.inf = 0x7f800000 := by decide
                                                         omega)]
    decide +kernel
  · rfl

theorem stable32_6 (f : F32) : goFloat.format32 6 (back32 goFloat 6 f) = goFloat.format32 6 f := by
  have hI : fmt32.inf = 0x7f800000 := by decide
  unfold back32
  by_cases h : f.toNat % 2 ^ 31 = 0 ∨ 0x7f800000 ≤ f.toNat % 2 ^ 31
  · rw [parse32_special h, Option.getD_some]
    split
    · rename_i h1
      simp only [goFloat]
      rw [format_nan fmt32 6 _ (n := f.toNat % 2 ^ 31) (by omega)]
      decide +kernel
    · rfl
  · have hfin := finite32_6 (bits := f.toNat % 2 ^ 31) (by omega) (by rw [hI]; omega)
    rw [parse32_finite usable32_6 (by omega) (by omega) (by rw [← hI]; exact hfin), Option.getD_some]
    have hst := fun neg => format_stable usable32_6 (by decide) (by decide) neg (bits := f.toNat % 2 ^ 31) (by omega)
      (by rw [hI]; omega) hfin (no_corner32 _)
    generalize readBack fmt32 6 (f.toNat % 2 ^ 31) = r at *
    rw [hI] at hfin
    simp only [goFloat]
    by_cases hs : 2 ^ 31 ≤ f.toNat
    · have e : (BitVec.ofNat 32 ((if 2 ^ 31 ≤ f.toNat then 2 ^ 31 else 0) + r)).toNat = 2 ^ 31 + r := by
        rw [if_pos hs, BitVec.toNat_ofNat]; omega
      rw [e, show (2 ^ 31 + r) % 2 ^ 31 = r by omega, hst]
      rw [decide_eq_decide.2 (by omega : 2 ^ 31 ≤ 2 ^ 31 + r ↔ 2 ^ 31 ≤ f.toNat)]
    · have e : (BitVec.ofNat 32 ((if 2 ^ 31 ≤ f.toNat then 2 ^ 31 else 0) + r)).toNat = r := by
        rw [if_neg hs, BitVec.toNat_ofNat]; omega
      rw [e, show r % 2 ^ 31 = r by omega, hst]
      rw [decide_eq_decide.2 (by omega : 2 ^ 31 ≤ r ↔ 2 ^ 31 ≤ f.toNat)]

theorem stable64 {f : F64} (hf : f.toNat % 2 ^ 63 ≠ 202402254) :
    goFloat.format64 9 (back64 goFloat f) = goFloat.format64 9 f := by
  have hI : fmt64.inf = 0x7ff0000000000000 := by decide
  have hlt := f.isLt
  unfold back64
  by_cases h1 : fmt64.inf < f.toNat % 2 ^ 63
  · have e : goFloat.format64 9 f = str "NaN" := format_nan fmt64 9 _ h1
    rw [e]; decide +kernel
  · by_cases h2 : f.toNat % 2 ^ 63 = fmt64.inf
    · have e : goFloat.format64 9 f = if decide (2 ^ 63 ≤ f.toNat) then str "-Inf" else str "+Inf" :=
        format_inf 9 _ h2.symm
      rw [e]
      cases decide (2 ^ 63 ≤ f.toNat) <;> decide +kernel
    · by_cases h3 : f.toNat % 2 ^ 63 = 0
      · have e : goFloat.format64 9 f = (if decide (2 ^ 63 ≤ f.toNat) then [45#8] else []) ++ [48#8] := by
          show fmt64.format 9 _ (f.toNat % 2 ^ 63) = _
          rw [h3]; exact format_zero fmt64 9 _ (by decide)
        rw [e]
        cases decide (2 ^ 63 ≤ f.toNat) <;> decide +kernel
      · have hfin := finite64_9 (bits := f.toNat % 2 ^ 63) (by omega) (by omega)
        have hp := (format_parse usable64_9 0x7ff8000000000001 (decide (2 ^ 63 ≤ f.toNat)) (bits := f.toNat % 2 ^ 63)
          (by omega) (by omega)).1
        rw [if_neg (by omega)] at hp
        have hst := fun neg => format_stable usable64_9 (by decide) (by decide) neg (bits := f.toNat % 2 ^ 63) (by omega)
          (by omega) hfin (fun c => hf (corner64 c))
        generalize readBack fmt64 9 (f.toNat % 2 ^ 63) = r at *
        rw [hI] at hfin
        simp only [goFloat]
        rw [hp, Option.map_some, Option.getD_some]
        by_cases hs : 2 ^ 63 ≤ f.toNat
        · have e : (BitVec.ofNat 64 ((if decide (2 ^ 63 ≤ f.toNat) = true then 2 ^ 63 else 0) + r)).toNat = 2 ^ 63 + r := by
            rw [if_pos (by simpa using hs), BitVec.toNat_ofNat]; omega
          simp only [e]
          rw [show (2 ^ 63 + r) % 2 ^ 63 = r by omega, hst]
          rw [decide_eq_decide.2 (by omega : 2 ^ 63 ≤ 2 ^ 63 + r ↔ 2 ^ 63 ≤ f.toNat)]
        · have e : (BitVec.ofNat 64 ((if decide (2 ^ 63 ≤ f.toNat) = true then 2 ^ 63 else 0) + r)).toNat = r := by
            rw [if_neg (by simpa using hs), BitVec.toNat_ofNat]; omega
          simp only [e]
          rw [show r % 2 ^ 63 = r by omega, hst]
          rw [decide_eq_decide.2 (by omega : 2 ^ 63 ≤ r ↔ 2 ^ 63 ≤ f.toNat)]

/-- The exception. -/
theorem unstable64 : goFloat.format64 9 202402254#64 = str "1e-315" ∧
    goFloat.format64 9 (back64 goFloat 202402254#64) = str "9.99999998e-316" := by decide +kernel

end Rbxlx

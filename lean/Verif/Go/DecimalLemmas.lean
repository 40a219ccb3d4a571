import Verif.Go.Decimal
import Mathlib.Tactic.Linarith
import Mathlib.Tactic.Ring
/-!
# Decimal text: the number that is read back
-/
namespace Go

/-! ## Rounding -/

theorem roundEven_near {a b m : Nat} (h1 : 2 * a < 2 * (m * b) + b) (h2 : 2 * (m * b) < 2 * a + b) :
    roundEven a b = m := by
  have hb : 0 < b := by
    rcases Nat.eq_zero_or_pos b with h | h
    · subst h; omega
    · exact h
  have hd := Nat.div_add_mod a b
  have hr := Nat.mod_lt a hb
  generalize hq : a / b = q at *
  generalize hm : a % b = r at *
  unfold roundEven
  rw [hq, hm]
  rcases Nat.lt_trichotomy m q with h | h | h
  · have : (m + 1) * b ≤ q * b := Nat.mul_le_mul_right b h
    nlinarith
  · subst h
    have : 2 * r < b := by nlinarith
    simp [this]
  · have h3 : (q + 1) * b ≤ m * b := Nat.mul_le_mul_right b h
    have hm1 : m = q + 1 := by
      by_contra hne
      have : (q + 2) * b ≤ m * b := Nat.mul_le_mul_right b (by omega)
      nlinarith
    subst hm1
    have : b < 2 * r := by nlinarith
    rw [if_neg (by omega), if_pos this]

theorem roundEven_bound (a : Nat) {b : Nat} (hb : 0 < b) :
    2 * a ≤ 2 * (roundEven a b * b) + b ∧ 2 * (roundEven a b * b) ≤ 2 * a + b := by
  have hd := Nat.div_add_mod a b
  have hr := Nat.mod_lt a hb
  unfold roundEven
  generalize a / b = q at *
  generalize a % b = r at *
  split
  · constructor <;> nlinarith
  · split
    · constructor <;> nlinarith
    · split
      · constructor <;> nlinarith
      · constructor <;> nlinarith

theorem roundEven_scale (a b : Nat) {c : Nat} (hc : 0 < c) : roundEven (a * c) (b * c) = roundEven a b := by
  unfold roundEven
  rw [Nat.mul_mod_mul_right, Nat.mul_div_mul_right _ _ hc]
  have e : ∀ x y : Nat, (x * c < y * c) = (x < y) := fun x y => propext (Nat.mul_lt_mul_right hc)
  have e1 : 2 * (a % b * c) = (2 * (a % b)) * c := by ring
  simp only [e1, e]

theorem roundEven_ratio {a b a' b' : Nat} (hb : 0 < b) (hb' : 0 < b') (h : a * b' = a' * b) :
    roundEven a b = roundEven a' b' := by
  rw [← roundEven_scale a b hb', ← roundEven_scale a' b' hb, h, Nat.mul_comm b b']

theorem div_ratio {a b a' b' : Nat} (hb : 0 < b) (hb' : 0 < b') (h : a * b' = a' * b) : a / b = a' / b' := by
  rw [← Nat.mul_div_mul_right a b hb', ← Nat.mul_div_mul_right a' b' hb, h, Nat.mul_comm b b']

theorem nearest_ratio (φ : FloatFmt) {a b a' b' : Nat} (hb : 0 < b) (hb' : 0 < b') (h : a * b' = a' * b) :
    φ.nearest a b = φ.nearest a' b' := by
  unfold FloatFmt.nearest
  rw [div_ratio hb hb' h]
  simp only
  congr 1
  have hp := Nat.two_pow_pos ((a' / b').log2 - φ.mb)
  refine roundEven_ratio (Nat.mul_pos hb hp) (Nat.mul_pos hb' hp) ?_
  rw [← Nat.mul_assoc, h]; ring

theorem roundEven_mono {a a' b : Nat} (hb : 0 < b) (h : a ≤ a') : roundEven a b ≤ roundEven a' b := by
  by_contra hlt
  have h1 := (roundEven_bound a hb).2
  have h2 := (roundEven_bound a' hb).1
  have h3 : (roundEven a' b + 1) * b ≤ roundEven a b * b := Nat.mul_le_mul_right b (by omega)
  have : a = a' := by nlinarith
  rw [this] at hlt
  omega

theorem roundEven_le {a b m : Nat} (hb : 0 < b) (h : a ≤ m * b) : roundEven a b ≤ m := by
  have h1 := roundEven_mono hb h
  have h2 : roundEven (m * b) b = m := roundEven_near (by omega) (by omega)
  omega

/-! ## The nearest number -/

theorem log2_eq {n k : Nat} (h1 : 2 ^ k ≤ n) (h2 : n < 2 ^ (k + 1)) : n.log2 = k := by
  have hn : n ≠ 0 := by have := Nat.two_pow_pos k; omega
  have a := (Nat.le_log2 hn).2 h1
  have b := (Nat.log2_lt hn).2 h2
  omega

theorem log2_small {n k : Nat} (h : n < 2 ^ (k + 1)) : n.log2 - k = 0 := by
  by_cases hn : n = 0
  · subst hn; simp
  · have b := (Nat.log2_lt hn).2 h
    omega

set_option maxHeartbeats 1000000 in
/-- A number closer than a quarter of the distance to the next number is rounded to it. -/
theorem nearest_near (φ : FloatFmt) {bits a b : Nat} (hb : 0 < b)
    (h1 : 4 * a < 4 * (φ.value bits * b) + b * 2 ^ (bits / 2 ^ φ.mb - 1))
    (h2 : 4 * (φ.value bits * b) < 4 * a + b * 2 ^ (bits / 2 ^ φ.mb - 1)) : φ.nearest a b = bits := by
  obtain ⟨mb, eb, unit⟩ := φ
  simp only [FloatFmt.value, FloatFmt.nearest] at *
  have hP : 0 < 2 ^ mb := Nat.two_pow_pos mb
  have hdm := Nat.div_add_mod bits (2 ^ mb)
  have hr := Nat.mod_lt bits hP
  have hta : a / b * b ≤ a := Nat.div_mul_le_self a b
  have hta' : a < (a / b + 1) * b := by
    have := Nat.div_add_mod a b
    have := Nat.mod_lt a hb
    nlinarith
  generalize hE : bits / 2 ^ mb = ex at *
  generalize hr' : bits % 2 ^ mb = r at *
  generalize hP' : 2 ^ mb = P at *
  by_cases hex : ex ≤ 1
  · -- spacing 1
    have hs : ex - 1 = 0 := by omega
    simp only [hs, Nat.pow_zero, Nat.mul_one] at h1 h2
    have hv : (if ex = 0 then r else P + r) = bits := by
      have : ex = 0 ∨ ex = 1 := by omega
      rcases this with h | h <;> subst h <;> simp <;> omega
    rw [hv] at h1 h2
    have hlt : a / b < 2 ^ (mb + 1) := by
      rw [Nat.pow_succ, hP']
      by_contra hge
      have hb2 : bits + 1 ≤ a / b := by
        have : P * ex ≤ P * 1 := Nat.mul_le_mul_left P hex
        omega
      have := Nat.mul_le_mul_right b hb2
      nlinarith
    rw [log2_small hlt]
    simp only [Nat.pow_zero, Nat.mul_one, Nat.zero_mul, Nat.zero_add]
    exact roundEven_near (by omega) (by omega)
  · obtain ⟨s, rfl⟩ : ∃ s, ex = s + 2 := ⟨ex - 2, by omega⟩
    rw [if_neg (by omega)] at h1 h2
    have hs : s + 2 - 1 = s + 1 := by omega
    rw [hs] at h1 h2
    generalize hm : P + r = m at *
    have hS : 0 < 2 ^ s := Nat.two_pow_pos s
    rw [Nat.pow_succ] at h1 h2
    generalize hS' : 2 ^ s = S at *
    have hm1 : P ≤ m := by omega
    have hm2 : m + 1 ≤ 2 * P := by omega
    have hbS : 0 < b * S := Nat.mul_pos hb hS
    -- an upper bound for the integral part
    have hup : a / b < 2 ^ (mb + (s + 1) + 1) := by
      rw [Nat.pow_succ, Nat.pow_add, Nat.pow_succ, hP', hS']
      by_contra hge
      have h3 : P * (S * 2) * 2 * b ≤ a / b * b := Nat.mul_le_mul_right b (by omega)
      have h4 : (m + 1) * (S * 2 * b) ≤ 2 * P * (S * 2 * b) := Nat.mul_le_mul_right _ hm2
      nlinarith
    by_cases hlo : 2 ^ (mb + (s + 1)) ≤ a / b
    · rw [log2_eq hlo hup]
      have e1 : mb + (s + 1) - mb = s + 1 := by omega
      rw [e1, Nat.pow_succ, hS']
      rw [roundEven_near (m := m)]
      · nlinarith
      · nlinarith
      · nlinarith
    · -- just below a power of two
      have hlo' : a / b + 1 ≤ 2 ^ (mb + (s + 1)) := by omega
      rw [Nat.pow_add, Nat.pow_succ, hP', hS'] at hlo'
      have h3 : a < P * (S * 2) * b := Nat.lt_of_lt_of_le hta' (Nat.mul_le_mul_right b hlo')
      have hmP : m = P := by
        by_contra hne
        have h5 : (P + 1) * (S * 2 * b) ≤ m * (S * 2 * b) := Nat.mul_le_mul_right _ (by omega)
        nlinarith
      subst hmP
      have hlow : 2 ^ (mb + s) ≤ a / b := by
        rw [Nat.pow_add, hP', hS']
        rw [Nat.le_div_iff_mul_le hb]
        have : 1 * (S * b) ≤ m * (S * b) := Nat.mul_le_mul_right _ hP
        nlinarith
      rw [log2_eq hlow (by
        rw [Nat.pow_succ, Nat.pow_add, hP', hS']
        have : m * S * 2 = m * (S * 2) := by ring
        omega)]
      have e1 : mb + s - mb = s := by omega
      rw [e1, hS']
      rw [roundEven_near (m := 2 * m)]
      · nlinarith
      · nlinarith
      · nlinarith

/-- The largest finite number. -/
def FloatFmt.max (φ : FloatFmt) : Nat := φ.value (φ.inf - 1)

theorem max_aux {P : Nat} (hP : 0 < P) (k : Nat) :
    (if ((k + 3) * P - 1) / P = 0 then ((k + 3) * P - 1) % P
      else (P + ((k + 3) * P - 1) % P) * 2 ^ (((k + 3) * P - 1) / P - 1)) = (P * 2 - 1) * 2 ^ (k + 1) := by
  have e : (k + 3) * P - 1 = (k + 2) * P + (P - 1) := by
    have : (k + 3) * P = (k + 2) * P + P := by ring
    omega
  have d : ((k + 2) * P + (P - 1)) / P = k + 2 := by
    rw [Nat.mul_comm, Nat.mul_add_div hP, Nat.div_eq_of_lt (by omega), Nat.add_zero]
  have m : ((k + 2) * P + (P - 1)) % P = P - 1 := by
    rw [Nat.mul_comm, Nat.mul_add_mod, Nat.mod_eq_of_lt (by omega)]
  simp only [e, d, m]
  rw [if_neg (by omega), show k + 2 - 1 = k + 1 by omega]
  congr 1
  omega

theorem max_eq (φ : FloatFmt) (he : 2 ≤ φ.eb) : φ.max = (2 ^ (φ.mb + 1) - 1) * 2 ^ (2 ^ φ.eb - 3) := by
  obtain ⟨mb, eb, unit⟩ := φ
  simp only [FloatFmt.max, FloatFmt.value, FloatFmt.inf] at *
  have hE : 4 ≤ 2 ^ eb := by
    have : 2 ^ 2 ≤ 2 ^ eb := Nat.pow_le_pow_right (by decide) he
    simpa using this
  obtain ⟨k, hk⟩ : ∃ k, 2 ^ eb = k + 4 := ⟨2 ^ eb - 4, by omega⟩
  have h1 : k + 4 - 1 = k + 3 := by omega
  have h2 : k + 4 - 3 = k + 1 := by omega
  simp only [hk, h1, h2, Nat.pow_succ 2 mb]
  exact max_aux (Nat.two_pow_pos mb) k

/-- A number that is not larger than the largest finite number is rounded to a finite number. -/
theorem nearest_finite (φ : FloatFmt) (he : 2 ≤ φ.eb) {a b : Nat} (hb : 0 < b) (h : a ≤ φ.max * b) :
    φ.nearest a b < φ.inf := by
  rw [max_eq φ he] at h
  obtain ⟨mb, eb, unit⟩ := φ
  simp only [FloatFmt.nearest, FloatFmt.inf] at *
  have hP : 0 < 2 ^ mb := Nat.two_pow_pos mb
  have hE : 4 ≤ 2 ^ eb := by
    have : 2 ^ 2 ≤ 2 ^ eb := Nat.pow_le_pow_right (by decide) he
    simpa using this
  generalize 2 ^ eb = E at *
  obtain ⟨k, rfl⟩ : ∃ k, E = k + 4 := ⟨E - 4, by omega⟩
  rw [show k + 4 - 3 = k + 1 by omega] at h
  have hK : 0 < 2 ^ (k + 1) := Nat.two_pow_pos _
  have ht : a / b ≤ (2 ^ (mb + 1) - 1) * 2 ^ (k + 1) := by
    have := Nat.div_le_div_right (c := b) h
    rwa [Nat.mul_div_cancel _ hb] at this
  have hlt : a / b < 2 ^ (mb + (k + 1) + 1) := by
    have e : 2 ^ (mb + (k + 1) + 1) = 2 ^ (mb + 1) * 2 ^ (k + 1) := by rw [← Nat.pow_add]; congr 1; omega
    rw [e]
    have : (2 ^ (mb + 1) - 1) * 2 ^ (k + 1) < 2 ^ (mb + 1) * 2 ^ (k + 1) := by
      apply Nat.mul_lt_mul_of_pos_right _ hK
      have := Nat.two_pow_pos (mb + 1)
      omega
    omega
  -- the spacing
  have hs : (a / b).log2 - mb ≤ k + 1 := by
    by_cases hn : a / b = 0
    · rw [hn]; simp
    · have := (Nat.log2_lt hn).2 hlt
      omega
  have hsz : a / b < 2 ^ (mb + 1) * 2 ^ ((a / b).log2 - mb) := by
    by_cases hn : a / b = 0
    · rw [hn]
      exact Nat.mul_pos (Nat.two_pow_pos _) (Nat.two_pow_pos _)
    · rw [← Nat.pow_add]
      refine (Nat.log2_lt hn).1 ?_
      omega
  generalize (a / b).log2 - mb = s at *
  have hS : 0 < 2 ^ s := Nat.two_pow_pos s
  have hround : roundEven a (b * 2 ^ s) ≤ 2 ^ (mb + 1) := by
    refine roundEven_le (Nat.mul_pos hb hS) ?_
    have h1 : a < (a / b + 1) * b := by
      have := Nat.div_add_mod a b
      have := Nat.mod_lt a hb
      nlinarith
    have h2 : (a / b + 1) * b ≤ 2 ^ (mb + 1) * 2 ^ s * b := Nat.mul_le_mul_right b hsz
    nlinarith
  rw [show k + 4 - 1 = k + 3 by omega]
  rcases Nat.lt_or_ge s (k + 1) with hlt | hge
  · rw [Nat.pow_succ] at hround
    have : s * 2 ^ mb ≤ k * 2 ^ mb := Nat.mul_le_mul_right _ (by omega)
    nlinarith
  · have hse : s = k + 1 := by omega
    subst hse
    have hround' : roundEven a (b * 2 ^ (k + 1)) ≤ 2 ^ (mb + 1) - 1 := by
      refine roundEven_le (Nat.mul_pos hb hS) ?_
      calc a ≤ (2 ^ (mb + 1) - 1) * 2 ^ (k + 1) * b := h
        _ = (2 ^ (mb + 1) - 1) * (b * 2 ^ (k + 1)) := by ring
    have h2 : 2 ^ (mb + 1) = 2 * 2 ^ mb := by rw [Nat.pow_succ]; ring
    have : (k + 1) * 2 ^ mb + 2 * 2 ^ mb = (k + 3) * 2 ^ mb := by ring
    omega

end Go

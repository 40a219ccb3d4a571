import Verif.Go.Shortest
import Verif.Rbxlx.GoFloat
/-!
# The shortest text of a number is read back as the number
-/
namespace Rbxlx
open Go Rbxfile

theorem pointDigits_spec (φ : FloatFmt) {m j p : Nat} (hm : 0 < m) :
    (pointDigits m j p φ.unit).1.all isDigit = true ∧ (pointDigits m j p φ.unit).1 ≠ [] ∧
    φ.ofDecimal (natOf (pointDigits m j p φ.unit).1) ((pointDigits m j p φ.unit).2 - (pointDigits m j p φ.unit).1.length) =
      φ.ofDecimal m ((j : Int) + 1 - p - φ.unit) := by
  simp only [pointDigits]
  obtain ⟨z, hz⟩ := trim_zeros (formatUint m)
  generalize hds : ((formatUint m).reverse.dropWhile fun c => decide (c = 48#8)).reverse = ds at *
  have hnat : m = natOf ds * 10 ^ z := by
    have := natOf_formatUint m
    rw [hz, natOf_zeros_right] at this
    exact this.symm
  have hlen : (formatUint m).length = ds.length + z := by rw [hz]; simp
  refine ⟨?_, ?_, ?_⟩
  · rw [all_digits]
    intro c hc
    exact formatUint_digits m c (by rw [hz]; simp [hc])
  · rintro rfl
    simp [natOf] at hnat
    omega
  · rw [hlen]
    have := ofDecimal_shift φ (natOf ds) z ((j : Int) + 1 - φ.unit + (((ds.length + z : Nat) : Int) - p) - ds.length)
    rw [← this, ← hnat]
    congr 1
    omega

/-- The decimals next to a number have about `p` digits. -/
theorem nextDecimals_spec {a p : Nat} (ha : 0 < a) (hp : 0 < p) (hj : p ≤ log10 a + 1) :
    (0 < (nextDecimals a p).1 ∧ (nextDecimals a p).1 ≤ 10 ^ p) ∧ (0 < (nextDecimals a p).2 ∧ (nextDecimals a p).2 ≤ 10 ^ p) := by
  obtain ⟨-, -, -, d4, d5⟩ := roundDigits_spec fmt32 ha hp hj
  obtain ⟨h1, h2⟩ := log10_spec ha
  have hT : 0 < 10 ^ (log10 a + 1 - p) := Nat.pow_pos (by decide)
  have hp1 : 0 < 10 ^ (p - 1) := Nat.pow_pos (by decide)
  have e : 10 ^ log10 a = 10 ^ (p - 1) * 10 ^ (log10 a + 1 - p) := by rw [← Nat.pow_add]; congr 1; omega
  have e' : 10 ^ (log10 a + 1) = 10 ^ p * 10 ^ (log10 a + 1 - p) := by rw [← Nat.pow_add]; congr 1; omega
  have hlo : 10 ^ (p - 1) ≤ a / 10 ^ (log10 a + 1 - p) := by
    rw [Nat.le_div_iff_mul_le hT]; omega
  have hhi : a / 10 ^ (log10 a + 1 - p) < 10 ^ p := by
    rw [Nat.div_lt_iff_lt_mul hT]; omega
  simp only [nextDecimals]
  refine ⟨⟨by omega, d5⟩, ?_⟩
  split <;> omega

/-- The position of the point is not far away. -/
theorem pointDigits_small {m j p unit : Nat} (hm : m ≤ 10 ^ p) (hj : j < 2000) (hp : p ≤ j + 1) (hu : unit < 40000) :
    ((pointDigits m j p unit).2 - 1).natAbs < 100000 := by
  have hlen : (formatUint m).length ≤ p + 1 := by
    refine decimalAux_length _ _ _ ?_
    have : 10 ^ p < 10 ^ (p + 1) := Nat.pow_lt_pow_right (by decide) (by omega)
    omega
  simp only [pointDigits]
  omega

/-- What is found is read as the number. -/
theorem shortFrom_spec {φ : FloatFmt} {bits : Nat} {a : Nat} (ha : 0 < a) (hl : log10 a < 2000) (hu : φ.unit < 40000) :
    ∀ (fuel p : Nat), 0 < p → p + fuel ≤ log10 a + 1 →
      φ.ofDecimal (nextDecimals a (p + fuel)).1 ((log10 a : Int) + 1 - (p + fuel : Nat) - φ.unit) = bits →
      (φ.shortFrom bits a fuel p).1.all isDigit = true ∧ (φ.shortFrom bits a fuel p).1 ≠ [] ∧
      φ.ofDecimal (natOf (φ.shortFrom bits a fuel p).1) ((φ.shortFrom bits a fuel p).2 - (φ.shortFrom bits a fuel p).1.length) = bits ∧
      ((φ.shortFrom bits a fuel p).2 - 1).natAbs < 100000
  | 0, p, hp, hj, h => by
    obtain ⟨⟨h1, h2⟩, -⟩ := nextDecimals_spec ha hp (by omega)
    obtain ⟨s1, s2, s3⟩ := pointDigits_spec φ (j := log10 a) (p := p) h1
    rw [FloatFmt.shortFrom]
    exact ⟨s1, s2, by rw [s3]; exact h, pointDigits_small h2 hl (by omega) hu⟩
  | fuel + 1, p, hp, hj, h => by
    obtain ⟨⟨h1, h2⟩, h3, h4⟩ := nextDecimals_spec ha hp (by omega)
    rw [FloatFmt.shortFrom]
    split
    · rename_i hn
      obtain ⟨s1, s2, s3⟩ := pointDigits_spec φ (j := log10 a) (p := p) h1
      exact ⟨s1, s2, by rw [s3]; exact hn, pointDigits_small h2 hl (by omega) hu⟩
    split
    · rename_i hn
      obtain ⟨s1, s2, s3⟩ := pointDigits_spec φ (j := log10 a) (p := p) h3
      exact ⟨s1, s2, by rw [s3]; exact hn, pointDigits_small h4 hl (by omega) hu⟩
    · refine shortFrom_spec ha hl hu fuel (p + 1) (by omega) (by omega) ?_
      rw [show p + 1 + fuel = p + (fuel + 1) by omega]
      exact h

/-- The layouts that are used. -/
structure NumLayout (l : Bytes → Int → Bytes) : Prop where
  cases : ∀ digs dp, l digs dp = layoutE digs dp ∨ l digs dp = layoutF digs dp

theorem layout_f : NumLayout layoutF := ⟨fun _ _ => .inr rfl⟩
theorem layout_g : NumLayout layoutShortG := ⟨fun _ _ => by unfold layoutShortG; exact ite_eq_or_eq _ _ _⟩

theorem short_digits {φ : FloatFmt} {n bits : Nat} (hu : Usable φ n) (hun : φ.unit < 40000) (he : 2 ^ (φ.mb + 2) ≤ 10 ^ (n - 1)) (h0 : 0 < bits) (hb : bits < φ.inf) :
    let d := φ.shortFrom bits (φ.value bits * 5 ^ φ.unit) (n - 1) 1
    d.1.all isDigit = true ∧ d.1 ≠ [] ∧ φ.ofDecimal (natOf d.1) (d.2 - d.1.length) = bits ∧ (d.2 - 1).natAbs < 100000 := by
  have ha : 0 < φ.value bits * 5 ^ φ.unit := Nat.mul_pos (value_pos φ h0) (Nat.pow_pos (by decide))
  have hen := hu.enough h0
  have hp := hu.prec
  have hJ : log10 (φ.value bits * 5 ^ φ.unit) < 2000 :=
    log10_lt ha (Nat.lt_of_le_of_lt (Nat.mul_le_mul_right _ (value_max φ hu.eb hb)) hu.size)
  have hex := digits_exact φ hp he (value_pos φ h0) hen
  refine shortFrom_spec ha hJ hun (n - 1) 1 (by decide) (by omega) ?_
  obtain ⟨-, -, d3, -, -⟩ := roundDigits_spec φ ha hp hen
  rw [hex] at d3
  obtain ⟨⟨p1, -⟩, -⟩ := nextDecimals_spec ha hp hen
  have := (pointDigits_spec φ (j := log10 (φ.value bits * 5 ^ φ.unit)) (p := n) p1).2.2
  rw [show 1 + (n - 1) = n by omega, ← this]
  exact d3

/-- What is written is read back as the number; all NaNs are read as one. -/
theorem short_parse {φ : FloatFmt} {n : Nat} (hu : Usable φ n) (hun : φ.unit < 40000) (he : 2 ^ (φ.mb + 2) ≤ 10 ^ (n - 1))
    {l : Bytes → Int → Bytes} (hl : NumLayout l) (nan : Nat) (neg : Bool) {bits : Nat} (h0 : 0 < bits) (hb : bits < φ.inf) :
    φ.parse nan (φ.short n l neg bits) = some (neg, bits) := by
  obtain ⟨d1, d2, d3, d4⟩ := short_digits hu hun he h0 hb
  have hform : φ.short n l neg bits = (if neg then [45#8] else []) ++
      l (φ.shortFrom bits (φ.value bits * 5 ^ φ.unit) (n - 1) 1).1 (φ.shortFrom bits (φ.value bits * 5 ^ φ.unit) (n - 1) 1).2 := by
    have z1 : ¬ φ.inf < bits := by omega
    have z2 : ¬ bits = φ.inf := by omega
    have z3 : ¬ bits = 0 := by omega
    simp only [FloatFmt.short, z1, z2, z3, if_false]
  rw [hform]
  generalize (φ.shortFrom bits (φ.value bits * 5 ^ φ.unit) (n - 1) 1).1 = digs at *
  generalize (φ.shortFrom bits (φ.value bits * 5 ^ φ.unit) (n - 1) 1).2 = dp at *
  rcases hl.cases digs dp with h | h
  · obtain ⟨x1, x2, x3⟩ := expText_spec (dp - 1).natAbs
    have := parse_textE (digs := digs) (dp := dp) (ex := expText (dp - 1).natAbs) d1 d2 x1 x2 x3 d4
    rw [h, layoutE_eq, parse_digital φ nan neg (textE_digital d1 d2) this, d3, if_neg (by omega)]
  · obtain ⟨z, hz⟩ := parse_layoutF (dp := dp) d1 d2
    rw [h, parse_digital φ nan neg (layoutF_digital d1 d2) hz, ofDecimal_shift, d3, if_neg (by omega)]

theorem usable64_18 : Usable fmt64 18 := ⟨by decide, by decide, by decide +kernel, by decide +kernel, by decide⟩

/-- `ParseFloat` reads the shortest text of a `float32` as the number. -/
theorem short32_parse {l : Bytes → Int → Bytes} (hl : NumLayout l) (f : F32) : goFloat.parse32 (short32 l f) =
    some (if 0x7f800000 < f.toNat % 2 ^ 31 then 0x7fc00000#32 else f) := by
  have hI : fmt32.inf = 0x7f800000 := by decide
  have hf := f.isLt
  have key : ∀ (neg : Bool) (n : Nat), n ≤ fmt32.inf → fmt32.parse 0x7fc00000 (fmt32.short 9 l neg n) = some (neg, n) := by
    intro neg n hn
    by_cases h : 0 < n ∧ n < fmt32.inf
    · exact short_parse usable32_9 (by decide) (by decide) hl _ neg h.1 h.2
    · rcases Nat.lt_or_ge n fmt32.inf with h' | h'
      · have : n = 0 := by omega
        subst this
        have e : fmt32.short 9 l neg 0 = (if neg then [45#8] else []) ++ [48#8] := by
          unfold FloatFmt.short
          rw [if_neg (by decide), if_neg (by decide), if_pos rfl]
        rw [e]; cases neg <;> decide +kernel
      · have : n = fmt32.inf := by omega
        have e : fmt32.short 9 l neg n = if neg then str "-Inf" else str "+Inf" := by
          unfold FloatFmt.short
          rw [if_neg (by omega), if_pos this]
        rw [e, this]; cases neg <;> decide +kernel
  simp only [goFloat, short32]
  by_cases h1 : 0x7f800000 < f.toNat % 2 ^ 31
  · have e : fmt32.short 9 l (decide (2 ^ 31 ≤ f.toNat)) (f.toNat % 2 ^ 31) = str "NaN" := by
      unfold FloatFmt.short
      rw [if_pos (by omega)]
    rw [if_pos h1, e]
    decide +kernel
  · rw [if_neg h1, key _ _ (by rw [hI]; omega)]
    simp only [Option.map_some, decide_eq_true_eq, Option.some.injEq]
    apply BitVec.eq_of_toNat_eq
    rw [BitVec.toNat_ofNat]
    by_cases hs : 2 ^ 31 ≤ f.toNat
    · rw [if_pos hs]; omega
    · rw [if_neg hs]; omega

/-- `ParseFloat` reads the shortest text of a `float64` as the number. -/
theorem short64_parse {l : Bytes → Int → Bytes} (hl : NumLayout l) (f : F64) : goFloat.parse64 (short64 l f) =
    some (if 0x7ff0000000000000 < f.toNat % 2 ^ 63 then 0x7ff8000000000001#64 else f) := by
  have hI : fmt64.inf = 0x7ff0000000000000 := by decide
  have hf := f.isLt
  have key : ∀ (neg : Bool) (n : Nat), n ≤ fmt64.inf → fmt64.parse 0x7ff8000000000001 (fmt64.short 18 l neg n) = some (neg, n) := by
    intro neg n hn
    by_cases h : 0 < n ∧ n < fmt64.inf
    · exact short_parse usable64_18 (by decide) (by decide) hl _ neg h.1 h.2
    · rcases Nat.lt_or_ge n fmt64.inf with h' | h'
      · have : n = 0 := by omega
        subst this
        have e : fmt64.short 18 l neg 0 = (if neg then [45#8] else []) ++ [48#8] := by
          unfold FloatFmt.short
          rw [if_neg (by decide), if_neg (by decide), if_pos rfl]
        rw [e]; cases neg <;> decide +kernel
      · have : n = fmt64.inf := by omega
        have e : fmt64.short 18 l neg n = if neg then str "-Inf" else str "+Inf" := by
          unfold FloatFmt.short
          rw [if_neg (by omega), if_pos this]
        rw [e, this]; cases neg <;> decide +kernel
  simp only [goFloat, short64]
  by_cases h1 : 0x7ff0000000000000 < f.toNat % 2 ^ 63
  · have e : fmt64.short 18 l (decide (2 ^ 63 ≤ f.toNat)) (f.toNat % 2 ^ 63) = str "NaN" := by
      unfold FloatFmt.short
      rw [if_pos (by omega)]
    rw [if_pos h1, e]
    decide +kernel
  · rw [if_neg h1, key _ _ (by rw [hI]; omega)]
    simp only [Option.map_some, decide_eq_true_eq, Option.some.injEq]
    apply BitVec.eq_of_toNat_eq
    rw [BitVec.toNat_ofNat]
    by_cases hs : 2 ^ 63 ≤ f.toNat
    · rw [if_pos hs]; omega
    · rw [if_neg hs]; omega

/-! ## The characters -/

/-- The characters of a number. -/
def numChar (c : Byte) : Prop := (48 ≤ c.toNat ∧ c.toNat ≤ 57) ∨ c = 46#8 ∨ c = 45#8 ∨ c = 43#8 ∨ c = 101#8

theorem layoutE_chars {digs : Bytes} (dp : Int) (h : digs.all isDigit = true) : ∀ c ∈ layoutE digs dp, numChar c := by
  intro c hc
  rw [layoutE_eq, textE_eq, List.mem_append, List.mem_cons, List.mem_cons] at hc
  rcases hc with hc | rfl | rfl | hc
  · rcases mant_numeric h c hc with h | h | h
    · exact .inl h
    · exact .inr (.inl h)
    · exact .inr (.inr (.inl h))
  · exact .inr (.inr (.inr (.inr rfl)))
  · split
    · exact .inr (.inr (.inl rfl))
    · exact .inr (.inr (.inr (.inl rfl)))
  · exact .inl (all_digits.1 (expText_spec (dp - 1).natAbs).1 c hc)

theorem pointDigits_digits (m j p unit : Nat) : (pointDigits m j p unit).1.all isDigit = true := by
  rw [all_digits]
  intro c hc
  simp only [pointDigits, List.mem_reverse] at hc
  have := (List.dropWhile_sublist _).mem hc
  exact formatUint_digits _ c (List.mem_reverse.1 this)

theorem shortFrom_digits (φ : FloatFmt) (bits a : Nat) : ∀ fuel p, (φ.shortFrom bits a fuel p).1.all isDigit = true
  | 0, p => by
    rw [FloatFmt.shortFrom]
    exact pointDigits_digits _ _ _ _
  | fuel + 1, p => by
    rw [FloatFmt.shortFrom]
    split
    · exact pointDigits_digits _ _ _ _
    split
    · exact pointDigits_digits _ _ _ _
    · exact shortFrom_digits φ bits a fuel (p + 1)

theorem short_chars (φ : FloatFmt) (n : Nat) {l : Bytes → Int → Bytes} (hl : NumLayout l) (neg : Bool) (bits : Nat) :
    (∀ c ∈ φ.short n l neg bits, numChar c) ∨ φ.short n l neg bits = str "NaN" ∨ φ.short n l neg bits = str "-Inf" ∨
      φ.short n l neg bits = str "+Inf" := by
  unfold FloatFmt.short
  split
  · exact .inr (.inl rfl)
  split
  · cases neg
    · exact .inr (.inr (.inr rfl))
    · exact .inr (.inr (.inl rfl))
  left
  have hsign : ∀ c ∈ (if neg then [45#8] else []), numChar c := by
    cases neg
    · intro c hc; cases hc
    · intro c hc; rw [List.mem_singleton.1 hc]; exact .inr (.inr (.inl rfl))
  generalize (if neg then [45#8] else []) = sg at *
  intro c hc
  rcases List.mem_append.1 hc with hc | hc
  · exact hsign c hc
  split at hc
  · rw [List.mem_singleton.1 hc]; exact .inl (by decide)
  simp only at hc
  have hd := shortFrom_digits φ bits (φ.value bits * 5 ^ φ.unit) (n - 1) 1
  rcases hl.cases (φ.shortFrom bits (φ.value bits * 5 ^ φ.unit) (n - 1) 1).1 (φ.shortFrom bits (φ.value bits * 5 ^ φ.unit) (n - 1) 1).2 with hG | hG
  · rw [hG] at hc
    exact layoutE_chars _ hd c hc
  · rw [hG] at hc
    rcases layoutF_numeric _ hd c hc with h | h | h
    · exact .inl h
    · exact .inr (.inl h)
    · exact .inr (.inr (.inl h))

end Rbxlx

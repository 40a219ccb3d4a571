import Verif.Go.DecimalText
import Verif.Rbxlx.ValueBack
/-!
# The texts of floating point numbers in an XML file

What the codec writes for a number (`%.9g` or `%.6g` with an exponent of three digits) can be read by `ParseFloat`, and
nine digits are enough for a `float32`.
-/
namespace Rbxlx
open Go Rbxfile

/-! ## The layout -/

theorem idxOf_mid {pre t : Bytes} {c : Byte} (h : c ∉ pre) : (pre ++ c :: t).idxOf? c = some pre.length := by
  induction pre with
  | nil => simp [List.idxOf?_cons]
  | cons x xs ih =>
    have hx : ¬ x = c := fun e => h (by simp [e])
    have := ih fun hc => h (by simp [hc])
    simp [List.idxOf?_cons, hx, this]

theorem idxOf_none {s : Bytes} {c : Byte} (h : c ∉ s) : s.idxOf? c = none := by
  simpa using h

/-- Zeros are added to the exponent. -/
theorem fixFloatExp_exp {pre ex : Bytes} {sg : Byte} (h : 101#8 ∉ pre) :
    ∃ k, fixFloatExp (pre ++ 101#8 :: sg :: ex) = pre ++ 101#8 :: sg :: (List.replicate k 48#8 ++ ex) := by
  have e1 : (pre ++ 101#8 :: sg :: ex).drop (pre.length + 2) = ex := by
    rw [List.drop_append]; simp
  have e2 : (pre ++ 101#8 :: sg :: ex).take (pre.length + 2) = pre ++ [101#8, sg] := by
    rw [List.take_append]
    have : List.take (pre.length + 2) pre = pre := List.take_of_length_le (by omega)
    rw [this]; simp
  unfold fixFloatExp
  rw [idxOf_mid h]
  simp only [e1, e2]
  split
  · exact ⟨3 - ex.length, by simp⟩
  · exact ⟨0, by simp⟩

theorem fixFloatExp_plain {s : Bytes} (h : 101#8 ∉ s) : fixFloatExp s = s := by
  unfold fixFloatExp
  rw [idxOf_none h]

/-- Characters of a number: digits, a point and a sign. -/
def Numeric (s : Bytes) : Prop := ∀ c ∈ s, (48 ≤ c.toNat ∧ c.toNat ≤ 57) ∨ c = 46#8 ∨ c = 45#8

theorem Numeric.noE {s : Bytes} (h : Numeric s) : 101#8 ∉ s := by
  intro hc
  rcases h _ hc with h | h | h <;> simp at h

theorem Numeric.of_digits {s : Bytes} (h : s.all isDigit = true) : Numeric s :=
  fun c hc => .inl (all_digits.1 h c hc)
theorem Numeric.append {s t : Bytes} (hs : Numeric s) (ht : Numeric t) : Numeric (s ++ t) := by
  intro c hc
  rw [List.mem_append] at hc
  exact hc.elim (hs c) (ht c)
theorem Numeric.cons {c : Byte} {t : Bytes} (hc : Numeric [c]) (ht : Numeric t) : Numeric (c :: t) := hc.append ht
theorem Numeric.zeros (k : Nat) : Numeric (List.replicate k 48#8) := by
  intro c hc
  rw [List.eq_of_mem_replicate hc]; decide
theorem Numeric.nil : Numeric [] := fun _ h => by cases h
theorem Numeric.point : Numeric [46#8] := fun c h => by simp at h; simp [h]
theorem Numeric.minus : Numeric [45#8] := fun c h => by simp at h; simp [h]
theorem Numeric.sub {s t : Bytes} (h : Numeric s) (hs : ∀ c ∈ t, c ∈ s) : Numeric t := fun c hc => h c (hs c hc)

/-- The mantissa of a number in exponent form. -/
def mant (digs : Bytes) : Bytes :=
  match digs with
  | [] => []
  | [c] => [c]
  | c :: cs => c :: 46#8 :: cs

theorem mant_numeric {digs : Bytes} (h : digs.all isDigit = true) : Numeric (mant digs) := by
  have hn := Numeric.of_digits h
  unfold mant
  split
  · exact .nil
  · exact hn
  · rename_i c cs _
    exact .cons (hn.sub (by simp)) (.cons .point (hn.sub fun x hx => by simp [hx]))

theorem layoutF_numeric {digs : Bytes} (dp : Int) (h : digs.all isDigit = true) : Numeric (layoutF digs dp) := by
  have hn := Numeric.of_digits h
  unfold layoutF
  refine .append ?_ ?_
  · split
    · exact .append (hn.sub fun c hc => List.mem_of_mem_take hc) (.zeros _)
    · exact .zeros 1
  · split
    · exact .cons .point (.append (.zeros _) (hn.sub fun c hc => List.mem_of_mem_drop hc))
    · exact .nil

theorem layoutE_eq (digs : Bytes) (dp : Int) : layoutE digs dp = textE digs dp (expText (dp - 1).natAbs) := rfl
theorem textE_eq (digs : Bytes) (dp : Int) (ex : Bytes) :
    textE digs dp ex = mant digs ++ 101#8 :: (if dp - 1 < 0 then 45#8 else 43#8) :: ex := rfl

theorem layoutG_cases (p : Nat) (digs : Bytes) (dp : Int) :
    layoutG p digs dp = layoutE digs dp ∨ layoutG p digs dp = layoutF digs dp := by
  unfold layoutG
  exact (ite_eq_or_eq _ _ _)

/-- A text that begins with a digit. -/
def Digital (s : Bytes) : Prop := ∃ c t, s = c :: t ∧ isDigit c = true

theorem textE_digital {digs : Bytes} {dp : Int} {ex : Bytes} (h : digs.all isDigit = true) (hn : digs ≠ []) :
    Digital (textE digs dp ex) := by
  match digs, h, hn with
  | [c], h, _ => exact ⟨c, _, rfl, by simpa using h⟩
  | c :: c' :: cs, h, _ =>
    refine ⟨c, _, rfl, ?_⟩
    simp only [List.all_cons, Bool.and_eq_true] at h
    exact h.1

theorem layoutF_digital {digs : Bytes} {dp : Int} (h : digs.all isDigit = true) (hn : digs ≠ []) :
    Digital (layoutF digs dp) := by
  unfold layoutF
  split
  · rename_i hp
    match digs, h, hn with
    | c :: cs, h, _ =>
      simp only [List.all_cons, Bool.and_eq_true] at h
      obtain ⟨k, hk⟩ : ∃ k, dp.toNat = k + 1 := ⟨dp.toNat - 1, by omega⟩
      rw [hk]
      exact ⟨c, _, rfl, h.1⟩
  · exact ⟨48#8, _, rfl, by decide⟩

/-! ## Parsing a number with its sign -/

theorem lower_head {c : Byte} {t : Bytes} {x : Byte} {u : Bytes} (hc : c.toNat < 65) (hx : 65 ≤ x.toNat) :
    ¬ lowerCase (c :: t) = x :: u := by
  intro h
  simp only [lowerCase, List.map_cons, List.cons.injEq] at h
  rw [if_neg (by omega)] at h
  rw [h.1] at hc
  omega

theorem parse_digital (φ : FloatFmt) (nan : Nat) (neg : Bool) {body : Bytes} (hb : Digital body) {m : Nat} {e : Int}
    (h : parseDecimal body = some (m, e)) :
    φ.parse nan ((if neg then [45#8] else []) ++ body) =
      if φ.inf ≤ φ.ofDecimal m e then none else some (neg, φ.ofDecimal m e) := by
  obtain ⟨c, t, rfl, hc⟩ := hb
  simp only [isDigit, Bool.and_eq_true, decide_eq_true_eq] at hc
  have n1 : ¬ lowerCase (c :: t) = str "nan" := lower_head (x := 110#8) (by omega) (by decide)
  have n2 : ¬ lowerCase (c :: t) = str "inf" := lower_head (x := 105#8) (by omega) (by decide)
  have n3 : ¬ lowerCase (c :: t) = str "infinity" := lower_head (x := 105#8) (by omega) (by decide)
  have n4 : ¬ lowerCase (45#8 :: c :: t) = str "nan" := lower_head (x := 110#8) (by decide) (by decide)
  have hs : splitSign (c :: t) = (false, c :: t) := by
    unfold splitSign
    split
    · rename_i heq; cases heq; simp at hc
    · rename_i heq; cases heq; simp at hc
    · rfl
  cases neg
  · simp only [FloatFmt.parse, Bool.false_eq_true, if_false, List.nil_append, hs, n1, n2, n3, false_or, h]
  · simp only [FloatFmt.parse, if_true, List.singleton_append, splitSign, n4, if_false, n2, n3, false_or, h]

/-! ## Sizes -/

theorem decimalAux_length : ∀ (fuel n k : Nat), n < 10 ^ (k + 1) → (decimalAux fuel n).length ≤ k + 1
  | 0, _, _, _ => by simp [decimalAux]
  | fuel + 1, n, k, h => by
    rw [decimalAux]
    split
    · simp
    · match k with
      | 0 => simp at h; omega
      | k + 1 =>
        have := decimalAux_length fuel (n / 10) k (by rw [Nat.pow_succ] at h; omega)
        simp; omega

theorem value_bound (φ : FloatFmt) (bits : Nat) :
    φ.value bits ≤ (2 ^ (φ.mb + 1) - 1) * 2 ^ (bits / 2 ^ φ.mb - 1) := by
  have hP := Nat.two_pow_pos φ.mb
  have hr := Nat.mod_lt bits hP
  unfold FloatFmt.value
  split
  · rename_i h0
    rw [h0]
    simp only [Nat.zero_sub, Nat.pow_zero, Nat.mul_one, Nat.pow_succ]
    omega
  · refine Nat.mul_le_mul_right _ ?_
    rw [Nat.pow_succ]; omega

theorem value_max (φ : FloatFmt) (he : 2 ≤ φ.eb) {bits : Nat} (h : bits < φ.inf) : φ.value bits ≤ φ.max := by
  rw [max_eq φ he]
  refine Nat.le_trans (value_bound φ bits) (Nat.mul_le_mul_left _ (Nat.pow_le_pow_right (by decide) ?_))
  have : bits / 2 ^ φ.mb < 2 ^ φ.eb - 1 := by
    rw [Nat.div_lt_iff_lt_mul (Nat.two_pow_pos φ.mb)]
    exact h
  omega

theorem value_pos (φ : FloatFmt) {bits : Nat} (h : 0 < bits) : 0 < φ.value bits := by
  have hP := Nat.two_pow_pos φ.mb
  unfold FloatFmt.value
  split
  · rename_i h0
    have := Nat.div_add_mod bits (2 ^ φ.mb)
    rw [h0] at this
    omega
  · exact Nat.mul_pos (by omega) (Nat.two_pow_pos _)

theorem le_log10 {n k : Nat} (h : 10 ^ k ≤ n) : k ≤ log10 n := by
  have hn : 0 < n := Nat.lt_of_lt_of_le (Nat.pow_pos (by decide)) h
  have := (Nat.pow_lt_pow_iff_right (by decide : 1 < 10)).1 (Nat.lt_of_le_of_lt h (log10_spec hn).2)
  omega

theorem log10_lt {n k : Nat} (h0 : 0 < n) (h : n < 10 ^ k) : log10 n < k :=
  (Nat.pow_lt_pow_iff_right (by decide : 1 < 10)).1 (Nat.lt_of_le_of_lt (log10_spec h0).1 h)

/-- What is needed of a format: its exponents have at most four digits, and every number has `p` digits. -/
structure Usable (φ : FloatFmt) (p : Nat) : Prop where
  eb : 2 ≤ φ.eb
  prec : 0 < p
  digits : 10 ^ (p - 1) ≤ 5 ^ φ.unit
  size : φ.max * 5 ^ φ.unit < 10 ^ 2000
  range : φ.unit + p < 50000

/-- The number that is read. -/
def readBack (φ : FloatFmt) (p bits : Nat) : Nat :=
  φ.nearest (roundEven (φ.value bits * 5 ^ φ.unit) (10 ^ (log10 (φ.value bits * 5 ^ φ.unit) + 1 - p)) *
    10 ^ (log10 (φ.value bits * 5 ^ φ.unit) + 1 - p)) (5 ^ φ.unit)

theorem Usable.enough {φ : FloatFmt} {p : Nat} (hu : Usable φ p) {bits : Nat} (h0 : 0 < bits) :
    p ≤ log10 (φ.value bits * 5 ^ φ.unit) + 1 := by
  have h1 := value_pos φ h0
  have h2 : 1 * 5 ^ φ.unit ≤ φ.value bits * 5 ^ φ.unit := Nat.mul_le_mul_right _ h1
  have := le_log10 (n := φ.value bits * 5 ^ φ.unit) (k := p - 1) (by have := hu.digits; omega)
  omega

/-- A number is written with its sign and digits; exponents may be filled up with zeros. -/
theorem format_parse {φ : FloatFmt} {p : Nat} (hu : Usable φ p) (nan : Nat) (neg : Bool) {bits : Nat}
    (h0 : 0 < bits) (hb : bits < φ.inf) :
    let r := if φ.inf ≤ readBack φ p bits then none else some (neg, readBack φ p bits)
    φ.parse nan (φ.format p neg bits) = r ∧ φ.parse nan (fixFloatExp (φ.format p neg bits)) = r := by
  have ha : 0 < φ.value bits * 5 ^ φ.unit := Nat.mul_pos (value_pos φ h0) (Nat.pow_pos (by decide))
  obtain ⟨d1, d2, d3, d4, d5⟩ := roundDigits_spec φ ha hu.prec (hu.enough h0)
  have hJ : log10 (φ.value bits * 5 ^ φ.unit) < 2000 :=
    log10_lt ha (Nat.lt_of_le_of_lt (Nat.mul_le_mul_right _ (value_max φ hu.eb hb)) hu.size)
  have hdp : ((roundDigits (φ.value bits * 5 ^ φ.unit) p φ.unit).2 - 1).natAbs < 100000 := by
    have hlen : (formatUint (roundEven (φ.value bits * 5 ^ φ.unit)
        (10 ^ (log10 (φ.value bits * 5 ^ φ.unit) + 1 - p)))).length ≤ p + 1 := by
      refine decimalAux_length _ _ _ ?_
      have : 10 ^ p < 10 ^ (p + 1) := Nat.pow_lt_pow_right (by decide) (by omega)
      omega
    have hr := hu.range
    simp only [roundDigits]
    omega
  have hform : φ.format p neg bits = (if neg then [45#8] else []) ++
      layoutG p (roundDigits (φ.value bits * 5 ^ φ.unit) p φ.unit).1
        (roundDigits (φ.value bits * 5 ^ φ.unit) p φ.unit).2 := by
    have z1 : ¬ φ.inf < bits := by omega
    have z2 : ¬ bits = φ.inf := by omega
    have z3 : ¬ bits = 0 := by omega
    simp only [FloatFmt.format, z1, z2, z3, if_false]
  simp only
  rw [hform]
  change φ.ofDecimal _ _ = readBack φ p bits at d3
  generalize (roundDigits (φ.value bits * 5 ^ φ.unit) p φ.unit).1 = digs at *
  generalize (roundDigits (φ.value bits * 5 ^ φ.unit) p φ.unit).2 = dp at *
  have hsign : Numeric (if neg then [45#8] else []) := by
    cases neg
    · exact .nil
    · exact .minus
  have hE : ∀ k, φ.parse nan ((if neg then [45#8] else []) ++
      textE digs dp (List.replicate k 48#8 ++ expText (dp - 1).natAbs)) =
      if φ.inf ≤ readBack φ p bits then none else some (neg, readBack φ p bits) := by
    intro k
    obtain ⟨x1, x2, x3⟩ := expText_spec (dp - 1).natAbs
    have hz : (List.replicate k 48#8).all isDigit = true := by
      rw [List.all_eq_true]; intro c hc; rw [List.eq_of_mem_replicate hc]; decide
    have := parse_textE (digs := digs) (dp := dp) (ex := List.replicate k 48#8 ++ expText (dp - 1).natAbs) d1 d2
      (by rw [List.all_append, hz, x1]; rfl) (by simp [x2]) (by rw [natOf_zeros_left, x3]) hdp
    rw [parse_digital φ nan neg (textE_digital d1 d2) this, d3]
  have hF : φ.parse nan ((if neg then [45#8] else []) ++ layoutF digs dp) =
      if φ.inf ≤ readBack φ p bits then none else some (neg, readBack φ p bits) := by
    obtain ⟨z, hz⟩ := parse_layoutF (dp := dp) d1 d2
    rw [parse_digital φ nan neg (layoutF_digital d1 d2) hz, ofDecimal_shift, d3]
  rcases layoutG_cases p digs dp with hG | hG
  · rw [hG, layoutE_eq]
    refine ⟨by simpa using hE 0, ?_⟩
    rw [textE_eq, ← List.append_assoc]
    obtain ⟨k, hk⟩ := fixFloatExp_exp (sg := if dp - 1 < 0 then 45#8 else 43#8) (ex := expText (dp - 1).natAbs)
      (hsign.append (mant_numeric d1)).noE
    rw [hk, List.append_assoc, ← textE_eq]
    exact hE k
  · rw [hG]
    exact ⟨hF, by rw [fixFloatExp_plain (hsign.append (layoutF_numeric dp d1)).noE]; exact hF⟩

/-! ## Nothing that is written is too large to be read -/

/-- If the largest number is rounded down, no number overflows. -/
theorem readBack_finite {φ : FloatFmt} {p : Nat} (hu : Usable φ p)
    (hmax : roundEven (φ.max * 5 ^ φ.unit) (10 ^ (log10 (φ.max * 5 ^ φ.unit) + 1 - p)) *
      10 ^ (log10 (φ.max * 5 ^ φ.unit) + 1 - p) ≤ φ.max * 5 ^ φ.unit)
    {bits : Nat} (h0 : 0 < bits) (hb : bits < φ.inf) : readBack φ p bits < φ.inf := by
  have h5 : 0 < 5 ^ φ.unit := Nat.pow_pos (by decide)
  have ha : 0 < φ.value bits * 5 ^ φ.unit := Nat.mul_pos (value_pos φ h0) h5
  have hle : φ.value bits * 5 ^ φ.unit ≤ φ.max * 5 ^ φ.unit := Nat.mul_le_mul_right _ (value_max φ hu.eb hb)
  refine nearest_finite φ hu.eb h5 ?_
  obtain ⟨-, -, -, -, d5⟩ := roundDigits_spec φ ha hu.prec (hu.enough h0)
  have hen := hu.enough h0
  have hA : 0 < φ.max * 5 ^ φ.unit := Nat.lt_of_lt_of_le ha hle
  obtain ⟨a1, -⟩ := log10_spec ha
  obtain ⟨a3, a4⟩ := log10_spec hA
  have hT : 0 < 10 ^ (log10 (φ.value bits * 5 ^ φ.unit) + 1 - p) := Nat.pow_pos (by decide)
  have hj : log10 (φ.value bits * 5 ^ φ.unit) < log10 (φ.max * 5 ^ φ.unit) + 1 :=
    (Nat.pow_lt_pow_iff_right (by decide : 1 < 10)).1 (by omega)
  rcases Nat.lt_or_ge (log10 (φ.value bits * 5 ^ φ.unit)) (log10 (φ.max * 5 ^ φ.unit)) with h | h
  · refine Nat.le_trans ?_ a3
    refine Nat.le_trans (Nat.mul_le_mul_right _ d5) ?_
    rw [← Nat.pow_add]
    exact Nat.pow_le_pow_right (by decide) (by omega)
  · have e : log10 (φ.value bits * 5 ^ φ.unit) = log10 (φ.max * 5 ^ φ.unit) := by omega
    rw [e] at hT ⊢
    exact Nat.le_trans (Nat.mul_le_mul_right _ (roundEven_mono hT hle)) hmax

theorem usable32_9 : Usable fmt32 9 := ⟨by decide, by decide, by decide +kernel, by decide +kernel, by decide⟩
theorem usable32_6 : Usable fmt32 6 := ⟨by decide, by decide, by decide +kernel, by decide +kernel, by decide⟩
theorem usable64_9 : Usable fmt64 9 := ⟨by decide, by decide, by decide +kernel, by decide +kernel, by decide⟩

theorem readBack_exact {bits : Nat} (h0 : 0 < bits) : readBack fmt32 9 bits = bits :=
  digits_exact fmt32 (by decide) (by decide) (value_pos fmt32 h0) (usable32_9.enough h0)

theorem finite32_6 {bits : Nat} (h0 : 0 < bits) (hb : bits < fmt32.inf) : readBack fmt32 6 bits < fmt32.inf :=
  readBack_finite usable32_6 (by decide +kernel) h0 hb
theorem finite64_9 {bits : Nat} (h0 : 0 < bits) (hb : bits < fmt64.inf) : readBack fmt64 9 bits < fmt64.inf :=
  readBack_finite usable64_9 (by decide +kernel) h0 hb

/-! ## The texts of the codec -/

theorem layoutE_bytes {digs : Bytes} (dp : Int) (h : digs.all isDigit = true) : ∀ c ∈ layoutE digs dp, 33 ≤ c.toNat := by
  intro c hc
  rw [layoutE_eq, textE_eq, List.mem_append, List.mem_cons, List.mem_cons] at hc
  rcases hc with hc | rfl | rfl | hc
  · rcases mant_numeric h c hc with h | rfl | rfl
    · omega
    · decide
    · decide
  · decide
  · split <;> decide
  · have := all_digits.1 (expText_spec (dp - 1).natAbs).1 c hc
    omega

theorem format_text (φ : FloatFmt) (p : Nat) (neg : Bool) (bits : Nat) :
    (∀ c ∈ φ.format p neg bits, 33 ≤ c.toNat) ∧ φ.format p neg bits ≠ [] := by
  have hd : (roundDigits (φ.value bits * 5 ^ φ.unit) p φ.unit).1.all isDigit = true := by
    rw [all_digits]
    intro c hc
    simp only [roundDigits, List.mem_reverse] at hc
    have := (List.dropWhile_sublist _).mem hc
    exact formatUint_digits _ c (List.mem_reverse.1 this)
  unfold FloatFmt.format
  split
  · exact ⟨by decide, by decide⟩
  split
  · cases neg <;> exact ⟨by decide, by decide⟩
  have hsign : ∀ c ∈ (if neg then [45#8] else []), 33 ≤ c.toNat := by cases neg <;> decide
  generalize (if neg then [45#8] else []) = sg at *
  split
  · refine ⟨fun c hc => ?_, by simp⟩
    rw [List.mem_append] at hc
    rcases hc with hc | hc
    · exact hsign c hc
    · simp at hc; subst hc; decide
  simp only
  generalize (roundDigits (φ.value bits * 5 ^ φ.unit) p φ.unit).1 = digs at *
  generalize (roundDigits (φ.value bits * 5 ^ φ.unit) p φ.unit).2 = dp at *
  rcases layoutG_cases p digs dp with hG | hG
  · rw [hG]
    refine ⟨fun c hc => ?_, by rw [layoutE_eq, textE_eq]; simp⟩
    rw [List.mem_append] at hc
    exact hc.elim (hsign c) (layoutE_bytes _ hd c)
  · rw [hG]
    refine ⟨fun c hc => ?_, ?_⟩
    · rw [List.mem_append] at hc
      refine hc.elim (hsign c) fun hc => ?_
      rcases layoutF_numeric _ hd c hc with h | rfl | rfl
      · omega
      · decide
      · decide
    · intro h
      rw [List.append_eq_nil_iff] at h
      have h2 := h.2
      simp only [layoutF] at h2
      rw [List.append_eq_nil_iff] at h2
      have h3 := h2.1
      split at h3
      · rename_i hp
        rw [List.append_eq_nil_iff, List.take_eq_nil_iff] at h3
        obtain ⟨h3, h4⟩ := h3
        rcases h3 with h3 | h3
        · omega
        · rw [h3] at h4
          simp at h4; omega
      · cases h3

/-- A number that is not a NaN. -/
def NotNaN (f : F32) : Prop := f.toNat % 2 ^ 31 ≤ 0x7f800000

theorem format_zero (φ : FloatFmt) (p : Nat) (neg : Bool) (h : 0 < φ.inf) :
    φ.format p neg 0 = (if neg then [45#8] else []) ++ [48#8] := by
  have z1 : ¬ φ.inf < 0 := by omega
  have z2 : ¬ 0 = φ.inf := by omega
  simp only [FloatFmt.format, z1, z2, if_false, if_true]

theorem format_inf {φ : FloatFmt} {n : Nat} (p : Nat) (neg : Bool) (h : φ.inf = n) :
    φ.format p neg n = if neg then str "-Inf" else str "+Inf" := by
  have z1 : ¬ n < n := by omega
  simp only [FloatFmt.format, h, z1, if_false, if_true]

theorem format_nan (φ : FloatFmt) (p : Nat) (neg : Bool) {n : Nat} (h : φ.inf < n) : φ.format p neg n = str "NaN" := by
  simp only [FloatFmt.format, h, if_true]

theorem parse32_special {p : Nat} {f : F32} (h : f.toNat % 2 ^ 31 = 0 ∨ 0x7f800000 ≤ f.toNat % 2 ^ 31) :
    goFloat.parse32 (fixFloatExp (goFloat.format32 p f)) =
      some (if 0x7f800000 < f.toNat % 2 ^ 31 then 0x7fc00000#32 else f) := by
  have hI : fmt32.inf = 0x7f800000 := by decide
  have hf := f.isLt
  have hz : ∀ neg : Bool, fixFloatExp (fmt32.format p neg 0) = if neg then str "-0" else str "0" := by
    intro neg
    rw [format_zero fmt32 p neg (by decide)]
    cases neg <;> decide
  have hi : ∀ neg : Bool, fixFloatExp (fmt32.format p neg 0x7f800000) = if neg then str "-Inf" else str "+Inf" := by
    intro neg
    rw [format_inf p neg hI]
    cases neg <;> decide
  by_cases h1 : 0x7f800000 < f.toNat % 2 ^ 31
  · rw [if_pos h1]
    simp only [goFloat]
    have : fixFloatExp (fmt32.format p (decide (2 ^ 31 ≤ f.toNat)) (f.toNat % 2 ^ 31)) = str "NaN" := by
      unfold FloatFmt.format
      rw [hI, if_pos h1]
      decide
    rw [this]
    decide +kernel
  · rw [if_neg h1]
    have e1 : fmt32.parse 0x7fc00000 (str "-0") = some (true, 0) := by decide +kernel
    have e2 : fmt32.parse 0x7fc00000 (str "0") = some (false, 0) := by decide +kernel
    have e3 : fmt32.parse 0x7fc00000 (str "-Inf") = some (true, 0x7f800000) := by decide +kernel
    have e4 : fmt32.parse 0x7fc00000 (str "+Inf") = some (false, 0x7f800000) := by decide +kernel
    simp only [goFloat]
    rcases h with h | h
    · rw [h, hz]
      by_cases hn : 2 ^ 31 ≤ f.toNat
      · simp only [hn, decide_true, if_true, e1, Option.map_some, Option.some.injEq]
        apply BitVec.eq_of_toNat_eq; simp; omega
      · simp only [hn, decide_false, Bool.false_eq_true, if_false, e2, Option.map_some, Option.some.injEq]
        apply BitVec.eq_of_toNat_eq; simp; omega
    · have h : f.toNat % 2 ^ 31 = 0x7f800000 := by omega
      rw [h, hi]
      by_cases hn : 2 ^ 31 ≤ f.toNat
      · simp only [hn, decide_true, if_true, e3, Option.map_some, Option.some.injEq]
        apply BitVec.eq_of_toNat_eq; simp; omega
      · simp only [hn, decide_false, Bool.false_eq_true, if_false, e4, Option.map_some, Option.some.injEq]
        apply BitVec.eq_of_toNat_eq; simp; omega

theorem parse32_finite {p : Nat} (hu : Usable fmt32 p) {f : F32} (h0 : 0 < f.toNat % 2 ^ 31)
    (hb : f.toNat % 2 ^ 31 < 0x7f800000) (hr : readBack fmt32 p (f.toNat % 2 ^ 31) < 0x7f800000) :
    goFloat.parse32 (fixFloatExp (goFloat.format32 p f)) =
      some (BitVec.ofNat 32 ((if 2 ^ 31 ≤ f.toNat then 2 ^ 31 else 0) + readBack fmt32 p (f.toNat % 2 ^ 31))) := by
  have hI : fmt32.inf = 0x7f800000 := by decide
  have := (format_parse hu 0x7fc00000 (decide (2 ^ 31 ≤ f.toNat)) h0 (by rw [hI]; exact hb)).2
  rw [hI, if_neg (by omega)] at this
  simp only [goFloat]
  rw [this]
  simp

theorem parse32_exact (f : F32) : goFloat.parse32 (fixFloatExp (goFloat.format32 9 f)) =
    some (if 0x7f800000 < f.toNat % 2 ^ 31 then 0x7fc00000#32 else f) := by
  by_cases h : f.toNat % 2 ^ 31 = 0 ∨ 0x7f800000 ≤ f.toNat % 2 ^ 31
  · exact parse32_special h
  · rw [parse32_finite usable32_9 (by omega) (by omega) (by rw [readBack_exact (by omega)]; omega),
      readBack_exact (by omega)]
    have hn : ¬ 0x7f800000 < f.toNat % 2 ^ 31 := by omega
    have hf := f.isLt
    rw [if_neg hn]
    congr 1
    apply BitVec.eq_of_toNat_eq
    rw [BitVec.toNat_ofNat]
    by_cases hs : 2 ^ 31 ≤ f.toNat
    · rw [if_pos hs]; omega
    · rw [if_neg hs]; omega

theorem parse32_six (f : F32) : (goFloat.parse32 (fixFloatExp (goFloat.format32 6 f))).isSome := by
  by_cases h : f.toNat % 2 ^ 31 = 0 ∨ 0x7f800000 ≤ f.toNat % 2 ^ 31
  · rw [parse32_special h]; rfl
  · have hI : fmt32.inf = 0x7f800000 := by decide
    have := finite32_6 (bits := f.toNat % 2 ^ 31) (by omega) (by rw [hI]; omega)
    rw [hI] at this
    rw [parse32_finite usable32_6 (by omega) (by omega) this]; rfl

theorem parse64_nine (f : F64) : (goFloat.parse64 (goFloat.format64 9 f)).isSome := by
  have hI : fmt64.inf = 0x7ff0000000000000 := by decide
  have key : (fmt64.parse 0x7ff8000000000001
      (fmt64.format 9 (decide (2 ^ 63 ≤ f.toNat)) (f.toNat % 2 ^ 63))).isSome := by
    generalize decide (2 ^ 63 ≤ f.toNat) = neg
    generalize f.toNat % 2 ^ 63 = n
    by_cases h : 0 < n ∧ n < fmt64.inf
    · have := (format_parse usable64_9 0x7ff8000000000001 neg h.1 h.2).1
      have hfin := finite64_9 h.1 h.2
      rw [if_neg (by omega)] at this
      rw [this]; rfl
    · rcases Nat.lt_trichotomy fmt64.inf n with h' | h' | h'
      · rw [format_nan fmt64 9 neg h']; decide +kernel
      · rw [format_inf 9 neg h']; cases neg <;> decide +kernel
      · have : n = 0 := by omega
        rw [this, format_zero fmt64 9 neg (by decide)]; cases neg <;> decide +kernel
  simpa [goFloat] using key

/-- The functions of the Go library write numbers that they can read. -/
theorem goFloat_readable : ReadableText goFloat where
  bytes32 p f := (format_text fmt32 p _ _).1
  nonempty32 p f := (format_text fmt32 p _ _).2
  bytes64 p f := (format_text fmt64 p _ _).1
  parse9 f := by rw [parse32_exact]; rfl
  parse6 := parse32_six
  parse64 := parse64_nine

/-- Nine digits are enough for a `float32`; every NaN becomes the same one. -/
theorem back32_exact (f : F32) : back32 goFloat 9 f = if 0x7f800000 < f.toNat % 2 ^ 31 then 0x7fc00000#32 else f := by
  unfold back32
  rw [parse32_exact]; rfl

end Rbxlx

import Verif.Go.DecimalLemmas
/-!
# Decimal text: formatting and parsing
-/
namespace Go

/-! ## Digits -/

theorem log10Aux_spec : ∀ (fuel n : Nat), 0 < n → n < 2 ^ fuel →
    10 ^ log10Aux fuel n ≤ n ∧ n < 10 ^ (log10Aux fuel n + 1)
  | 0, n, h0, h => by simp at h; omega
  | fuel + 1, n, h0, h => by
    rw [log10Aux]
    split
    · simp; omega
    · rename_i h10
      rw [Nat.pow_succ] at h
      obtain ⟨h1, h2⟩ := log10Aux_spec fuel (n / 10) (by omega) (by omega)
      rw [Nat.pow_succ] at h2 ⊢
      rw [Nat.pow_succ, Nat.pow_succ]
      omega

theorem log10_spec {n : Nat} (h : 0 < n) : 10 ^ log10 n ≤ n ∧ n < 10 ^ (log10 n + 1) :=
  log10Aux_spec _ _ h (Nat.lt_log2_self)

theorem log10_unique {n k : Nat} (h1 : 10 ^ k ≤ n) (h2 : n < 10 ^ (k + 1)) : log10 n = k := by
  have hn : 0 < n := Nat.lt_of_lt_of_le (Nat.pow_pos (by decide)) h1
  obtain ⟨h3, h4⟩ := log10_spec hn
  have a : k < log10 n + 1 := (Nat.pow_lt_pow_iff_right (by decide : 1 < 10)).1 (Nat.lt_of_le_of_lt h1 h4)
  have b : log10 n < k + 1 := (Nat.pow_lt_pow_iff_right (by decide : 1 < 10)).1 (Nat.lt_of_le_of_lt h3 h2)
  omega

theorem natOf_append (s : Bytes) (c : Byte) : natOf (s ++ [c]) = 10 * natOf s + (c.toNat - 48) := by
  simp [natOf]

theorem natOf_zeros_right (s : Bytes) : ∀ z, natOf (s ++ List.replicate z 48#8) = natOf s * 10 ^ z
  | 0 => by simp
  | z + 1 => by
    rw [List.replicate_succ', ← List.append_assoc, natOf_append, natOf_zeros_right s z, Nat.pow_succ]
    simp
    ring

theorem natOf_zeros_left (s : Bytes) : ∀ z, natOf (List.replicate z 48#8 ++ s) = natOf s
  | 0 => by simp
  | z + 1 => by
    have := natOf_zeros_left s z
    rw [List.replicate_succ, List.cons_append]
    unfold natOf at this ⊢
    simpa using this

theorem natOf_decimal : ∀ (fuel n : Nat), n < fuel → natOf (decimalAux fuel n) = n
  | 0, n, h => by omega
  | fuel + 1, n, h => by
    rw [decimalAux]
    split
    · rename_i h10
      simp only [natOf, List.foldl_cons, List.foldl_nil, digit_toNat h10]
      omega
    · rename_i h10
      rw [natOf_append, natOf_decimal fuel (n / 10) (by omega), digit_toNat (by omega)]
      omega

theorem natOf_formatUint (n : Nat) : natOf (formatUint n) = n := natOf_decimal _ _ (by omega)

theorem all_digits {s : Bytes} : s.all isDigit = true ↔ ∀ c ∈ s, 48 ≤ c.toNat ∧ c.toNat ≤ 57 := by
  simp [isDigit]

theorem digits_formatUint (n : Nat) : (formatUint n).all isDigit = true := all_digits.2 (formatUint_digits n)

theorem natFold_le : ∀ (s : Bytes) (n : Nat), n ≤ s.foldl (fun n c => 10 * n + (c.toNat - 48)) n
  | [], n => Nat.le_refl n
  | c :: s, n => by
    have := natFold_le s (10 * n + (c.toNat - 48))
    rw [List.foldl_cons]
    omega

theorem expFold_eq : ∀ (s : Bytes) (n : Nat), s.foldl (fun n c => 10 * n + (c.toNat - 48)) n < 100000 →
    s.foldl (fun n c => if n < 10000 then 10 * n + (c.toNat - 48) else n) n =
      s.foldl (fun n c => 10 * n + (c.toNat - 48)) n
  | [], n, _ => rfl
  | c :: s, n, h => by
    rw [List.foldl_cons] at h
    have := natFold_le s (10 * n + (c.toNat - 48))
    rw [List.foldl_cons, List.foldl_cons, if_pos (by omega)]
    exact expFold_eq s _ h

theorem expOf_eq (s : Bytes) (h : natOf s < 100000) : expOf s = natOf s := expFold_eq s 0 h

/-- Digits without trailing zeros. -/
theorem trim_zeros (s : Bytes) : ∃ z, s = (s.reverse.dropWhile fun c => decide (c = 48#8)).reverse ++
    List.replicate z 48#8 := by
  refine ⟨(s.reverse.takeWhile fun c => decide (c = 48#8)).length, ?_⟩
  have h1 : (s.reverse.takeWhile fun c => decide (c = 48#8)) =
      List.replicate (s.reverse.takeWhile fun c => decide (c = 48#8)).length 48#8 := by
    refine List.eq_replicate_of_mem fun c hc => ?_
    have := List.all_takeWhile (p := fun c : Byte => decide (c = 48#8)) (l := s.reverse)
    rw [List.all_eq_true] at this
    simpa using this c hc
  conv_lhs => rw [← List.reverse_reverse s, ← List.takeWhile_append_dropWhile (p := fun c : Byte => decide (c = 48#8))
    (l := s.reverse), List.reverse_append]
  congr 1
  rw [h1, List.reverse_replicate, List.length_replicate]

/-! ## Parsing what was written -/

theorem takeWhile_digits {ds : Bytes} (h : ds.all isDigit = true) {c : Byte} {t : Bytes} (hc : isDigit c = false) :
    (ds ++ c :: t).takeWhile isDigit = ds ∧ (ds ++ c :: t).dropWhile isDigit = c :: t := by
  rw [List.all_eq_true] at h
  exact ⟨by rw [List.takeWhile_append_of_pos h, List.takeWhile_cons_of_neg (by simp [hc]), List.append_nil],
    by rw [List.dropWhile_append_of_pos h, List.dropWhile_cons_of_neg (by simp [hc])]⟩

theorem takeWhile_digits_end {ds : Bytes} (h : ds.all isDigit = true) :
    ds.takeWhile isDigit = ds ∧ ds.dropWhile isDigit = [] := by
  rw [List.all_eq_true] at h
  have a := List.takeWhile_append_of_pos (p := isDigit) (l₁ := ds) (l₂ := []) h
  have b := List.dropWhile_append_of_pos (p := isDigit) (l₁ := ds) (l₂ := []) h
  simp at a b
  exact ⟨by simpa using a, by simpa using b⟩

theorem splitPoint_other {c : Byte} {t : Bytes} (h : c ≠ 46#8) : splitPoint (c :: t) = ([], c :: t) := by
  unfold splitPoint
  split
  · rename_i heq; cases heq; exact absurd rfl h
  · rfl

/-- The tail of a number in exponent form. -/
theorem parseExp_text {x : Int} {ex : Bytes} (h1 : ex.all isDigit = true) (h2 : ex ≠ []) (h3 : natOf ex = x.natAbs)
    (h4 : x.natAbs < 100000) : parseExp (101#8 :: (if x < 0 then 45#8 else 43#8) :: ex) = some x := by
  have hE := expOf_eq ex (by omega)
  by_cases hx : x < 0
  · rw [if_pos hx]
    simp only [parseExp, splitSign]
    rw [if_pos (Or.inl trivial), if_pos ⟨h2, h1⟩, hE, h3, if_pos trivial]
    congr 1; omega
  · rw [if_neg hx]
    simp only [parseExp, splitSign]
    rw [if_pos (Or.inl trivial), if_pos ⟨h2, h1⟩, hE, h3]
    simp
    omega

/-- A number in exponent form. -/
def textE (digs : Bytes) (dp : Int) (ex : Bytes) : Bytes :=
  (match digs with
    | [] => []
    | [c] => [c]
    | c :: cs => c :: 46#8 :: cs) ++ 101#8 :: (if dp - 1 < 0 then 45#8 else 43#8) :: ex

theorem parse_textE {digs : Bytes} {dp : Int} {ex : Bytes} (hd : digs.all isDigit = true) (hn : digs ≠ [])
    (h1 : ex.all isDigit = true) (h2 : ex ≠ []) (h3 : natOf ex = (dp - 1).natAbs) (h4 : (dp - 1).natAbs < 100000) :
    parseDecimal (textE digs dp ex) = some (natOf digs, dp - digs.length) := by
  have hexp := parseExp_text h1 h2 h3 h4
  match digs, hd, hn with
  | [c], hd, _ =>
    have ht := takeWhile_digits (ds := [c]) hd (c := 101#8) (t := (if dp - 1 < 0 then 45#8 else 43#8) :: ex) (by decide)
    simp only [textE, parseDecimal, ht.1, ht.2, splitPoint_other (show (101#8 : Byte) ≠ 46#8 by decide), hexp]
    simp
  | c :: c' :: cs, hd, _ =>
    simp only [List.all_cons, Bool.and_eq_true] at hd
    have ht := takeWhile_digits (ds := [c]) (by simp [hd.1]) (c := 46#8)
      (t := c' :: cs ++ 101#8 :: (if dp - 1 < 0 then 45#8 else 43#8) :: ex) (by decide)
    have ht' := takeWhile_digits (ds := c' :: cs) (by simp [hd.2.1, hd.2.2]) (c := 101#8)
      (t := (if dp - 1 < 0 then 45#8 else 43#8) :: ex) (by decide)
    have e : textE (c :: c' :: cs) dp ex = [c] ++ 46#8 :: (c' :: cs ++ 101#8 :: (if dp - 1 < 0 then 45#8 else 43#8) :: ex) := rfl
    rw [e]
    simp only [parseDecimal, ht.1, ht.2, splitPoint, ht'.1, ht'.2, hexp]
    simp
    omega

theorem parse_layoutF {digs : Bytes} {dp : Int} (hd : digs.all isDigit = true) (hn : digs ≠ []) :
    ∃ z : Nat, parseDecimal (layoutF digs dp) = some (natOf digs * 10 ^ z, dp - digs.length - z) := by
  have hz : ∀ k, (List.replicate k 48#8).all isDigit = true := by
    intro k; rw [List.all_eq_true]; intro c hc; rw [List.eq_of_mem_replicate hc]; decide
  unfold layoutF
  by_cases h0 : 0 < dp
  · rw [if_pos h0]
    by_cases h1 : dp < digs.length
    · rw [if_pos h1]
      refine ⟨0, ?_⟩
      have hk : dp.toNat - digs.length = 0 := by omega
      have hk' : (-dp).toNat = 0 := by omega
      have hd1 : (digs.take dp.toNat).all isDigit = true := by
        rw [all_digits] at hd ⊢; exact fun c hc => hd c (List.mem_of_mem_take hc)
      have hd2 : (digs.drop dp.toNat).all isDigit = true := by
        rw [all_digits] at hd ⊢; exact fun c hc => hd c (List.mem_of_mem_drop hc)
      simp only [hk, hk', List.replicate_zero, List.append_nil, List.nil_append]
      have ht := takeWhile_digits hd1 (c := 46#8) (t := digs.drop dp.toNat) (by decide)
      have ht' := takeWhile_digits_end hd2
      simp only [parseDecimal, ht.1, ht.2, splitPoint, ht'.1, ht'.2, parseExp, List.take_append_drop]
      have : digs.take dp.toNat ≠ [] := by
        intro h
        rw [List.take_eq_nil_iff] at h
        rcases h with h | h
        · omega
        · exact hn h
      simp [this]
      omega
    · rw [if_neg h1]
      refine ⟨dp.toNat - digs.length, ?_⟩
      have ht : digs.take dp.toNat = digs := List.take_of_length_le (by omega)
      rw [ht, List.append_nil]
      have hall : (digs ++ List.replicate (dp.toNat - digs.length) 48#8).all isDigit = true := by
        rw [List.all_append, hd, hz]; rfl
      have ht := takeWhile_digits_end hall
      simp only [parseDecimal, ht.1, ht.2, splitPoint, parseExp, List.append_nil]
      rw [natOf_zeros_right]
      simp [hn]
      omega
  · have hlen : 0 < digs.length := List.length_pos_iff.2 hn
    rw [if_neg h0, if_pos (by omega)]
    refine ⟨0, ?_⟩
    have hdr : dp.toNat = 0 := by omega
    have hall : (List.replicate (-dp).toNat 48#8 ++ digs).all isDigit = true := by
      rw [List.all_append, hd, hz]; rfl
    have ht := takeWhile_digits (ds := [48#8]) (by decide) (c := 46#8) (t := List.replicate (-dp).toNat 48#8 ++ digs) (by decide)
    have ht' := takeWhile_digits_end hall
    simp only [hdr, List.drop_zero, parseDecimal, ht.1, ht.2, splitPoint, ht'.1, ht'.2, parseExp]
    have e : natOf ([48#8] ++ (List.replicate (-dp).toNat 48#8 ++ digs)) = natOf digs := by
      have := natOf_zeros_left digs ((-dp).toNat + 1)
      rw [List.replicate_succ] at this
      simpa using this
    rw [e]
    simp
    omega

theorem expText_spec (e : Nat) : (expText e).all isDigit = true ∧ expText e ≠ [] ∧ natOf (expText e) = e := by
  unfold expText
  split
  · refine ⟨?_, by simp, ?_⟩
    · rw [List.all_cons, digits_formatUint]; decide
    · have := natOf_zeros_left (formatUint e) 1
      rw [natOf_formatUint] at this
      simpa using this
  · exact ⟨digits_formatUint e, formatUint_ne_nil e, natOf_formatUint e⟩

/-! ## The number that is read -/

theorem ofDecimal_eq (φ : FloatFmt) (m : Nat) {e : Int} {k : Nat} (h : 0 ≤ e + k) :
    φ.ofDecimal m e = φ.nearest (m * 10 ^ (e + k).toNat * 2 ^ φ.unit) (10 ^ k) := by
  have hk : 0 < 10 ^ k := Nat.pow_pos (by decide)
  unfold FloatFmt.ofDecimal
  split
  · refine nearest_ratio φ Nat.one_pos hk ?_
    have : (e + k).toNat = e.toNat + k := by omega
    rw [this, Nat.pow_add]; ring
  · refine nearest_ratio φ (Nat.pow_pos (by decide)) hk ?_
    have : k = (-e).toNat + (e + k).toNat := by omega
    conv_lhs => rw [this, Nat.pow_add]
    ring

theorem ofDecimal_shift (φ : FloatFmt) (m z : Nat) (e : Int) :
    φ.ofDecimal (m * 10 ^ z) (e - z) = φ.ofDecimal m e := by
  rw [ofDecimal_eq φ (m * 10 ^ z) (e := e - z) (k := (-e).toNat + z) (by omega),
    ofDecimal_eq φ m (e := e) (k := (-e).toNat + z) (by omega)]
  have : (e + ((-e).toNat + z : Nat)).toNat = (e - z + ((-e).toNat + z : Nat)).toNat + z := by omega
  rw [this, Nat.pow_add]
  congr 1
  ring

/-- The digits written for the number `a * 10 ^ -unit`, and what they stand for. -/
theorem roundDigits_spec (φ : FloatFmt) {a p : Nat} (ha : 0 < a) (hp : 0 < p) (hj : p ≤ log10 a + 1) :
    (roundDigits a p φ.unit).1.all isDigit = true ∧ (roundDigits a p φ.unit).1 ≠ [] ∧
    φ.ofDecimal (natOf (roundDigits a p φ.unit).1)
      ((roundDigits a p φ.unit).2 - (roundDigits a p φ.unit).1.length) =
      φ.nearest (roundEven a (10 ^ (log10 a + 1 - p)) * 10 ^ (log10 a + 1 - p)) (5 ^ φ.unit) ∧
    10 ^ (p - 1) ≤ roundEven a (10 ^ (log10 a + 1 - p)) ∧ roundEven a (10 ^ (log10 a + 1 - p)) ≤ 10 ^ p := by
  obtain ⟨h1, h2⟩ := log10_spec ha
  simp only [roundDigits]
  generalize hjj : log10 a = j at *
  have hT : 0 < 10 ^ (j + 1 - p) := Nat.pow_pos (by decide)
  have hlow : 10 ^ (p - 1) ≤ roundEven a (10 ^ (j + 1 - p)) := by
    have e : 10 ^ j = 10 ^ (p - 1) * 10 ^ (j + 1 - p) := by rw [← Nat.pow_add]; congr 1; omega
    have := roundEven_mono hT h1
    rw [e, roundEven_near (m := 10 ^ (p - 1)) (by omega) (by omega)] at this
    exact this
  have hhigh : roundEven a (10 ^ (j + 1 - p)) ≤ 10 ^ p := by
    refine roundEven_le hT ?_
    have e : 10 ^ (j + 1) = 10 ^ p * 10 ^ (j + 1 - p) := by rw [← Nat.pow_add]; congr 1; omega
    omega
  have hpos : 0 < roundEven a (10 ^ (j + 1 - p)) := Nat.lt_of_lt_of_le (Nat.pow_pos (by decide)) hlow
  generalize hD : roundEven a (10 ^ (j + 1 - p)) = D at *
  obtain ⟨z, hz⟩ := trim_zeros (formatUint D)
  generalize hds : ((formatUint D).reverse.dropWhile fun c => decide (c = 48#8)).reverse = ds at *
  have hnat : D = natOf ds * 10 ^ z := by
    have := natOf_formatUint D
    rw [hz, natOf_zeros_right] at this
    exact this.symm
  have hlen : (formatUint D).length = ds.length + z := by rw [hz]; simp
  refine ⟨?_, ?_, ?_, hlow, hhigh⟩
  · rw [all_digits]
    intro c hc
    exact formatUint_digits D c (by rw [hz]; simp [hc])
  · rintro rfl
    simp [natOf] at hnat
    omega
  · rw [hlen]
    have e : ((j : Int) + 1 - (φ.unit : Int) + (((ds.length + z : Nat) : Int) - (p : Int)) - (ds.length : Int)) =
        (((j + 1 - p : Nat) : Int) - (φ.unit : Int)) + z := by omega
    rw [e]
    have := ofDecimal_shift φ (natOf ds) z ((((j + 1 - p : Nat) : Int) - (φ.unit : Int)) + z)
    rw [← this, ← hnat]
    have e2 : ((((j + 1 - p : Nat) : Int) - (φ.unit : Int)) + z - z) = ((j + 1 - p : Nat) : Int) - (φ.unit : Int) := by omega
    rw [e2, ofDecimal_eq φ D (k := φ.unit) (by omega)]
    refine nearest_ratio φ (Nat.pow_pos (by decide)) (Nat.pow_pos (by decide)) ?_
    have e3 : ((((j + 1 - p : Nat) : Int) - (φ.unit : Int)) + (φ.unit : Nat)).toNat = j + 1 - p := by omega
    rw [e3]
    have : (10 : Nat) ^ φ.unit = 2 ^ φ.unit * 5 ^ φ.unit := by rw [← Nat.mul_pow]
    rw [this]
    ring

/-- With enough digits the number is read back. -/
theorem digits_exact (φ : FloatFmt) {bits p : Nat} (hp : 0 < p) (h : 2 ^ (φ.mb + 2) ≤ 10 ^ (p - 1))
    (hv : 0 < φ.value bits) (hj : p ≤ log10 (φ.value bits * 5 ^ φ.unit) + 1) :
    φ.nearest (roundEven (φ.value bits * 5 ^ φ.unit) (10 ^ (log10 (φ.value bits * 5 ^ φ.unit) + 1 - p)) *
      10 ^ (log10 (φ.value bits * 5 ^ φ.unit) + 1 - p)) (5 ^ φ.unit) = bits := by
  have h5 : 0 < 5 ^ φ.unit := Nat.pow_pos (by decide)
  have ha : 0 < φ.value bits * 5 ^ φ.unit := Nat.mul_pos hv h5
  obtain ⟨h1, h2⟩ := log10_spec ha
  generalize hjj : log10 (φ.value bits * 5 ^ φ.unit) = j at *
  have hT : 0 < 10 ^ (j + 1 - p) := Nat.pow_pos (by decide)
  obtain ⟨b1, b2⟩ := roundEven_bound (φ.value bits * 5 ^ φ.unit) hT
  -- the distance of the digits
  have e : 10 ^ j = 10 ^ (p - 1) * 10 ^ (j + 1 - p) := by rw [← Nat.pow_add]; congr 1; omega
  have hval : φ.value bits < 2 ^ (φ.mb + 1) * 2 ^ (bits / 2 ^ φ.mb - 1) := by
    have hP := Nat.two_pow_pos φ.mb
    have hr := Nat.mod_lt bits hP
    unfold FloatFmt.value
    split
    · rename_i h0
      rw [h0]
      simp only [Nat.zero_sub, Nat.pow_zero, Nat.mul_one, Nat.pow_succ]
      omega
    · refine Nat.mul_lt_mul_of_pos_right ?_ (Nat.two_pow_pos _)
      rw [Nat.pow_succ]; omega
  have hS := Nat.two_pow_pos (bits / 2 ^ φ.mb - 1)
  have key := nearest_near φ (bits := bits) (a := roundEven (φ.value bits * 5 ^ φ.unit) (10 ^ (j + 1 - p)) *
    10 ^ (j + 1 - p)) h5
  generalize 2 ^ (bits / 2 ^ φ.mb - 1) = S at *
  generalize 10 ^ (j + 1 - p) = T at *
  generalize φ.value bits = N at *
  have hsmall : 2 * T < 5 ^ φ.unit * S := by
    by_contra hge
    have g1 : 2 ^ (φ.mb + 2) * T ≤ 10 ^ (p - 1) * T := Nat.mul_le_mul_right T h
    have g2 : N * 5 ^ φ.unit < 2 ^ (φ.mb + 1) * S * 5 ^ φ.unit := Nat.mul_lt_mul_of_pos_right hval h5
    have g3 : 2 ^ (φ.mb + 1) * (5 ^ φ.unit * S) ≤ 2 ^ (φ.mb + 1) * (2 * T) := Nat.mul_le_mul_left _ (by omega)
    have g4 : 2 ^ (φ.mb + 2) * T = 2 ^ (φ.mb + 1) * (2 * T) := by rw [Nat.pow_succ 2 (φ.mb + 1)]; ring
    have g5 : 2 ^ (φ.mb + 1) * S * 5 ^ φ.unit = 2 ^ (φ.mb + 1) * (5 ^ φ.unit * S) := by ring
    omega
  refine key ?_ ?_
  · linarith
  · linarith

end Go

import Verif.Go.Basic
/-!
# `strconv`: integers in base 10

`FormatInt`, `FormatUint`, `ParseInt` and `ParseUint` of the Go standard library with base 10, as
documented and as implemented in `strconv/atoi.go` and `strconv/itoa.go`.
-/
namespace Go

/-- The decimal digit of a number below 10. -/
def digit (n : Nat) : Byte := BitVec.ofNat 8 (48 + n)

/-- The decimal digits of a number; the first argument bounds their count. -/
def decimalAux : Nat → Nat → Bytes
  | 0, _ => []
  | fuel + 1, n => if n < 10 then [digit n] else decimalAux fuel (n / 10) ++ [digit (n % 10)]

/-- `strconv.FormatUint(n, 10)`. -/
def formatUint (n : Nat) : Bytes := decimalAux (n + 1) n

/-- `strconv.FormatInt(n, 10)`. -/
def formatInt (n : Int) : Bytes :=
  if n < 0 then 45#8 :: formatUint n.natAbs else formatUint n.natAbs

/-- The kinds of error of `strconv`'s parsers. -/
inductive NumErr where
  | none
  | syntax
  | range
  deriving DecidableEq, Repr

/-- The loop of `strconv.ParseUint` in base 10; `max` is the largest value. An overflow is reported
as soon as it occurs, before later characters are looked at. -/
def parseUintLoop (max : Nat) : Nat → Bytes → Nat × NumErr
  | n, [] => (n, .none)
  | n, c :: cs =>
    if 48 ≤ c.toNat ∧ c.toNat ≤ 57 then
      let n := 10 * n + (c.toNat - 48)
      if max < n then (max, .range) else parseUintLoop max n cs
    else (0, .syntax)

/-- `strconv.ParseUint(s, 10, bits)`. -/
def parseUint (bits : Nat) (s : Bytes) : Nat × NumErr :=
  if s = [] then (0, .syntax) else parseUintLoop (2 ^ bits - 1) 0 s

/-- `strconv.ParseInt(s, 10, bits)`. -/
def parseInt (bits : Nat) (s : Bytes) : Int × NumErr :=
  let (neg, t) := match s with
    | 43#8 :: t => (false, t)
    | 45#8 :: t => (true, t)
    | t => (false, t)
  if s = [] then (0, .syntax)
  else
    match parseUint bits t with
    | (_, .syntax) => (0, .syntax)
    | (un, _) =>
      let cutoff : Nat := 2 ^ (bits - 1)
      if !neg && decide (cutoff ≤ un) then ((cutoff : Int) - 1, .range)
      else if neg && decide (cutoff < un) then (-(cutoff : Int), .range)
      else if neg then (-(un : Int), .none) else ((un : Int), .none)

/-! ## Lemmas -/

theorem digit_toNat {n : Nat} (h : n < 10) : (digit n).toNat = 48 + n := by
  simp [digit]; omega

theorem decimalAux_digits : ∀ (fuel n : Nat), ∀ c ∈ decimalAux fuel n, 48 ≤ c.toNat ∧ c.toNat ≤ 57
  | 0, n, c, h => by simp [decimalAux] at h
  | fuel + 1, n, c, h => by
    simp only [decimalAux] at h
    split at h
    · simp only [List.mem_singleton] at h
      subst h
      rw [digit_toNat (by omega)]; omega
    · simp only [List.mem_append, List.mem_singleton] at h
      rcases h with h | h
      · exact decimalAux_digits fuel _ c h
      · subst h
        rw [digit_toNat (by omega)]; omega

/-- The decimal text of a number consists of digits. -/
theorem formatUint_digits (n : Nat) : ∀ c ∈ formatUint n, 48 ≤ c.toNat ∧ c.toNat ≤ 57 :=
  decimalAux_digits _ _

theorem decimalAux_ne_nil (fuel n : Nat) : decimalAux (fuel + 1) n ≠ [] := by
  simp only [decimalAux]
  split <;> simp

theorem formatUint_ne_nil (n : Nat) : formatUint n ≠ [] := decimalAux_ne_nil _ _

theorem parseUintLoop_append (max : Nat) : ∀ (s t : Bytes) (n m : Nat),
    parseUintLoop max n s = (m, .none) → parseUintLoop max n (s ++ t) = parseUintLoop max m t
  | [], t, n, m, h => by
    simp only [parseUintLoop, Prod.mk.injEq, and_true] at h
    subst h; rfl
  | c :: s, t, n, m, h => by
    simp only [parseUintLoop, List.cons_append] at h ⊢
    split at h
    · rename_i hc
      split at h
      · cases h
      · rename_i hm
        rw [if_pos hc, if_neg hm]
        exact parseUintLoop_append max s t _ m h
    · cases h

theorem parseUintLoop_decimal (max : Nat) : ∀ (fuel n : Nat), n < fuel → n ≤ max →
    parseUintLoop max 0 (decimalAux fuel n) = (n, .none)
  | 0, n, h, _ => by omega
  | fuel + 1, n, h, hm => by
    simp only [decimalAux]
    split
    · rename_i h10
      simp only [parseUintLoop, digit_toNat h10]
      rw [if_pos (by omega), if_neg (by omega)]
      simp
    · rename_i h10
      rw [parseUintLoop_append max _ _ 0 (n / 10)
        (parseUintLoop_decimal max fuel (n / 10) (by omega) (by omega))]
      have hd := digit_toNat (n := n % 10) (by omega)
      simp only [parseUintLoop, hd]
      rw [if_pos (by omega), if_neg (by omega)]
      simp only [Prod.mk.injEq, and_true]
      omega

/-- `ParseUint` reads back what `FormatUint` wrote when the number fits. -/
theorem parseUint_formatUint {bits n : Nat} (h : n < 2 ^ bits) :
    parseUint bits (formatUint n) = (n, .none) := by
  simp only [parseUint, if_neg (formatUint_ne_nil n)]
  exact parseUintLoop_decimal _ _ _ (by omega) (by omega)

/-- The text of a number that is too large is a range error, and the largest value results. -/
theorem parseUintLoop_range (max : Nat) : ∀ (fuel n : Nat), n < fuel → max < n →
    parseUintLoop max 0 (decimalAux fuel n) = (max, .range)
  | 0, n, h, _ => by omega
  | fuel + 1, n, h, hm => by
    simp only [decimalAux]
    split
    · rename_i h10
      simp only [parseUintLoop, digit_toNat h10]
      rw [if_pos (by omega), if_pos (by omega)]
    · rename_i h10
      have hd := digit_toNat (n := n % 10) (by omega)
      by_cases hx : n / 10 ≤ max
      · rw [parseUintLoop_append max _ _ 0 (n / 10)
          (parseUintLoop_decimal max fuel (n / 10) (by omega) hx)]
        simp only [parseUintLoop, hd]
        rw [if_pos (by omega), if_pos (by omega)]
      · have := parseUintLoop_range max fuel (n / 10) (by omega) (by omega)
        have key : ∀ (s t : Bytes) (a : Nat), parseUintLoop max a s = (max, .range) →
            parseUintLoop max a (s ++ t) = (max, .range) := by
          intro s
          induction s with
          | nil => intro t a h; simp [parseUintLoop] at h
          | cons c s ih =>
            intro t a h
            simp only [parseUintLoop, List.cons_append] at h ⊢
            split at h
            · rename_i hc
              rw [if_pos hc]
              split at h
              · rename_i hc'; rw [if_pos hc']
              · rename_i hc'; rw [if_neg hc']; exact ih _ _ h
            · cases h
        exact key _ _ _ this

theorem parseUint_range {bits n : Nat} (h : 2 ^ bits ≤ n) :
    parseUint bits (formatUint n) = (2 ^ bits - 1, .range) := by
  simp only [parseUint, if_neg (formatUint_ne_nil n)]
  exact parseUintLoop_range _ _ _ (by omega) (by have := Nat.two_pow_pos bits; omega)

theorem formatUint_head (n : Nat) : ∀ {c : Byte} {t : Bytes}, formatUint n = c :: t →
    c ≠ 43#8 ∧ c ≠ 45#8 := by
  intro c t h
  have := formatUint_digits n c (by rw [h]; simp)
  constructor <;> (rintro rfl; simp at this)

theorem parseInt_pos {bits : Nat} {s : Bytes} (hs : s ≠ [])
    (h : ∀ {c : Byte} {t : Bytes}, s = c :: t → c ≠ 43#8 ∧ c ≠ 45#8) :
    parseInt bits s = (match parseUint bits s with
      | (_, .syntax) => (0, .syntax)
      | (un, _) => if 2 ^ (bits - 1) ≤ un then (((2 ^ (bits - 1) : Nat) : Int) - 1, .range)
          else ((un : Int), .none)) := by
  cases s with
  | nil => exact absurd rfl hs
  | cons c t =>
    obtain ⟨h1, h2⟩ := h rfl
    unfold parseInt
    split
    · rename_i heq
      split at heq
      · rename_i h'; cases h'; exact absurd rfl h1
      · rename_i h'; cases h'; exact absurd rfl h2
      · cases heq
        simp

theorem parseInt_neg {bits : Nat} (s : Bytes) :
    parseInt bits (45#8 :: s) = (match parseUint bits s with
      | (_, .syntax) => (0, .syntax)
      | (un, _) => if 2 ^ (bits - 1) < un then (-((2 ^ (bits - 1) : Nat) : Int), .range)
          else (-(un : Int), .none)) := by
  simp [parseInt]

/-- `ParseInt` reads back what `FormatInt` wrote when the number fits. -/
theorem parseInt_formatInt {bits : Nat} (hb : 0 < bits) {n : Int} (h1 : -(2 ^ (bits - 1) : Nat) ≤ n)
    (h2 : n < (2 ^ (bits - 1) : Nat)) : parseInt bits (formatInt n) = (n, .none) := by
  have hp : 2 ^ bits = 2 * 2 ^ (bits - 1) := by
    obtain ⟨k, rfl⟩ : ∃ k, bits = k + 1 := ⟨bits - 1, by omega⟩
    simp [Nat.pow_succ]; omega
  have := Nat.two_pow_pos (bits - 1)
  simp only [formatInt]
  split
  · rw [parseInt_neg, parseUint_formatUint (by omega)]
    simp only
    rw [if_neg (by omega)]
    simp only [Prod.mk.injEq, and_true]
    omega
  · rw [parseInt_pos (formatUint_ne_nil _) (formatUint_head _), parseUint_formatUint (by omega)]
    simp only
    rw [if_neg (by omega)]
    simp only [Prod.mk.injEq, and_true]
    omega

/-- `ParseInt` of an unsigned number that fits. -/
theorem parseInt_formatUint {bits n : Nat} (hb : 0 < bits) (h : n < 2 ^ (bits - 1)) :
    parseInt bits (formatUint n) = ((n : Int), .none) := by
  have := parseInt_formatInt (n := (n : Int)) hb (by omega) (by omega)
  rw [formatInt, if_neg (by omega), Int.natAbs_natCast] at this
  exact this

/-- `ParseInt` of an unsigned number that is too large: the largest value and a range error. -/
theorem parseInt_formatUint_range {bits n : Nat} (hb : 0 < bits) (h : 2 ^ (bits - 1) ≤ n) :
    parseInt bits (formatUint n) = (((2 ^ (bits - 1) : Nat) : Int) - 1, .range) := by
  have hp : 2 ^ bits = 2 * 2 ^ (bits - 1) := by
    obtain ⟨k, rfl⟩ : ∃ k, bits = k + 1 := ⟨bits - 1, by omega⟩
    simp [Nat.pow_succ]; omega
  have := Nat.two_pow_pos (bits - 1)
  rw [parseInt_pos (formatUint_ne_nil _) (formatUint_head _)]
  by_cases hn : n < 2 ^ bits
  · rw [parseUint_formatUint hn]
    simp only
    rw [if_pos h]
  · rw [parseUint_range (by omega)]
    simp only
    rw [if_pos (by omega)]

/-- The text of an integer consists of digits and possibly a minus sign. -/
theorem formatInt_bytes (n : Int) : ∀ c ∈ formatInt n, c.toNat = 45 ∨ (48 ≤ c.toNat ∧ c.toNat ≤ 57) := by
  intro c hc
  simp only [formatInt] at hc
  split at hc
  · rcases List.mem_cons.1 hc with rfl | hc
    · simp
    · exact .inr (formatUint_digits _ c hc)
  · exact .inr (formatUint_digits _ c hc)

end Go

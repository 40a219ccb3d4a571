import Verif.Go.Basic
/-!
# UTF-8 and `strconv.Quote`

Models of unicode/utf8 (`DecodeRuneInString`, `AppendRune`) and of strconv/quote.go (`Quote`). `unicode.IsPrint` is a parameter.
-/
namespace Go

/-- `utf8.RuneError`. -/
def runeError : Nat := 0xFFFD

/-- The range of the second byte after a first byte, and the length: the tables `first` and `acceptRanges` of unicode/utf8. -/
def utf8First (x : Nat) : Option (Nat × Nat × Nat) :=
  if x < 0xC2 then none
  else if x ≤ 0xDF then some (2, 0x80, 0xBF)
  else if x = 0xE0 then some (3, 0xA0, 0xBF)
  else if x = 0xED then some (3, 0x80, 0x9F)
  else if x ≤ 0xEF then some (3, 0x80, 0xBF)
  else if x = 0xF0 then some (4, 0x90, 0xBF)
  else if x ≤ 0xF3 then some (4, 0x80, 0xBF)
  else if x = 0xF4 then some (4, 0x80, 0x8F)
  else none

/-- A continuation byte. -/
def isCont (c : Byte) : Bool := decide (0x80 ≤ c.toNat) && decide (c.toNat ≤ 0xBF)

/-- `utf8.DecodeRuneInString` for a string that is not empty: the rune and its width. -/
def decodeRune : Bytes → Nat × Nat
  | [] => (runeError, 0)
  | a :: t =>
    if a.toNat < 0x80 then (a.toNat, 1)
    else
      match utf8First a.toNat with
      | none => (runeError, 1)
      | some (n, lo, hi) =>
        match t with
        | [] => (runeError, 1)
        | b :: t =>
          if b.toNat < lo ∨ hi < b.toNat then (runeError, 1)
          else if n = 2 then ((a.toNat % 32) * 64 + b.toNat % 64, 2)
          else
            match t with
            | [] => (runeError, 1)
            | c :: t =>
              if !isCont c then (runeError, 1)
              else if n = 3 then ((a.toNat % 16) * 4096 + (b.toNat % 64) * 64 + c.toNat % 64, 3)
              else
                match t with
                | [] => (runeError, 1)
                | d :: _ =>
                  if !isCont d then (runeError, 1)
                  else ((a.toNat % 8) * 262144 + (b.toNat % 64) * 4096 + (c.toNat % 64) * 64 + d.toNat % 64, 4)

/-- `utf8.AppendRune` for a valid rune. -/
def encodeRune (r : Nat) : Bytes :=
  if r < 0x80 then [BitVec.ofNat 8 r]
  else if r < 0x800 then [BitVec.ofNat 8 (0xC0 + r / 64), BitVec.ofNat 8 (0x80 + r % 64)]
  else if r < 0x10000 then [BitVec.ofNat 8 (0xE0 + r / 4096), BitVec.ofNat 8 (0x80 + r / 64 % 64), BitVec.ofNat 8 (0x80 + r % 64)]
  else [BitVec.ofNat 8 (0xF0 + r / 262144), BitVec.ofNat 8 (0x80 + r / 4096 % 64), BitVec.ofNat 8 (0x80 + r / 64 % 64),
    BitVec.ofNat 8 (0x80 + r % 64)]

/-- The runes of a string, as `range` yields them. The first argument bounds the number of runes. -/
def runesAux : Nat → Bytes → List Nat
  | 0, _ => []
  | _, [] => []
  | fuel + 1, s => (decodeRune s).1 :: runesAux fuel (s.drop (decodeRune s).2)

/-- The runes of a string. -/
def runes (s : Bytes) : List Nat := runesAux s.length s

/-- A digit in base 16, as in `lowerhex` of strconv/quote.go. -/
def lowerHex (n : Nat) : Byte := BitVec.ofNat 8 (if n < 10 then 48 + n else 87 + n)

/-- The last `k` digits in base 16. -/
def hexDigits : Nat → Nat → Bytes
  | 0, _ => []
  | k + 1, r => lowerHex (r / 16 ^ k % 16) :: hexDigits k r

/-- `appendEscapedRune` of strconv/quote.go with quote `"`, for a valid rune. -/
def escapeRune (isPrint : Nat → Bool) (r : Nat) : Bytes :=
  if r = 34 ∨ r = 92 then [92#8, BitVec.ofNat 8 r]
  else if isPrint r then encodeRune r
  else if r = 7 then str "\\a"
  else if r = 8 then str "\\b"
  else if r = 12 then str "\\f"
  else if r = 10 then str "\\n"
  else if r = 13 then str "\\r"
  else if r = 9 then str "\\t"
  else if r = 11 then str "\\v"
  else if r < 32 ∨ r = 127 then str "\\x" ++ hexDigits 2 r
  else if r < 0x10000 then str "\\u" ++ hexDigits 4 r
  else str "\\U" ++ hexDigits 8 r

/-- The loop of `appendQuotedWith` of strconv/quote.go. The first argument bounds the number of runes. -/
def quoteLoop (isPrint : Nat → Bool) : Nat → Bytes → Bytes
  | 0, _ => []
  | _, [] => []
  | fuel + 1, a :: t =>
    if (decodeRune (a :: t)).2 = 1 ∧ (decodeRune (a :: t)).1 = runeError then
      str "\\x" ++ hexDigits 2 a.toNat ++ quoteLoop isPrint fuel t
    else
      escapeRune isPrint (decodeRune (a :: t)).1 ++ quoteLoop isPrint fuel ((a :: t).drop (decodeRune (a :: t)).2)

/-- `strconv.Quote`. -/
def quote (isPrint : Nat → Bool) (s : Bytes) : Bytes := 34#8 :: (quoteLoop isPrint s.length s ++ [34#8])

/-! ## Reading a quoted string back -/

theorem ofNat_eq {a : Byte} {n : Nat} (h : n = a.toNat) : BitVec.ofNat 8 n = a := by
  subst h; simp

theorem utf8First_spec {x n lo hi : Nat} (h : utf8First x = some (n, lo, hi)) :
    (n = 2 ∧ 0xC2 ≤ x ∧ x ≤ 0xDF ∧ lo = 0x80 ∧ hi = 0xBF) ∨
    (n = 3 ∧ ((x = 0xE0 ∧ lo = 0xA0 ∧ hi = 0xBF) ∨ (x = 0xED ∧ lo = 0x80 ∧ hi = 0x9F) ∨
      (0xE1 ≤ x ∧ x ≤ 0xEF ∧ lo = 0x80 ∧ hi = 0xBF))) ∨
    (n = 4 ∧ ((x = 0xF0 ∧ lo = 0x90 ∧ hi = 0xBF) ∨ (x = 0xF4 ∧ lo = 0x80 ∧ hi = 0x8F) ∨
      (0xF1 ≤ x ∧ x ≤ 0xF3 ∧ lo = 0x80 ∧ hi = 0xBF))) := by
  unfold utf8First at h
  repeat' split at h
  all_goals first
    | (simp only [Option.some.injEq, Prod.mk.injEq] at h; omega)
    | cases h

/-- A valid rune is written as it was read. -/
theorem decodeRune_spec (a : Byte) (t : Bytes) :
    ((decodeRune (a :: t)).2 = 1 ∧ (decodeRune (a :: t)).1 = runeError) ∨
    (encodeRune (decodeRune (a :: t)).1 = (a :: t).take (decodeRune (a :: t)).2 ∧ 1 ≤ (decodeRune (a :: t)).2 ∧
      (decodeRune (a :: t)).1 < 0x110000) := by
  have ha := a.isLt
  unfold decodeRune
  simp only
  split
  · right
    unfold encodeRune
    rw [if_pos (by assumption)]
    refine ⟨?_, by simp, by simp only; omega⟩
    simp
  · split
    · left; exact ⟨rfl, rfl⟩
    · rename_i n lo hi hf
      replace hf := utf8First_spec hf
      split
      · left; exact ⟨rfl, rfl⟩
      · rename_i b t
        have hb := b.isLt
        split
        · left; exact ⟨rfl, rfl⟩
        · rename_i hb1
          by_cases h2 : n = 2
          · subst h2
            right
            rw [if_pos rfl]
            have hr : 0xC2 ≤ a.toNat ∧ a.toNat ≤ 0xDF ∧ lo = 0x80 ∧ hi = 0xBF := by omega
            unfold encodeRune
            simp only
            rw [if_neg (by omega), if_pos (by omega)]
            refine ⟨?_, by omega, by omega⟩
            simp only [List.take_succ_cons, List.take_zero, List.cons.injEq, and_true]
            exact ⟨ofNat_eq (by omega), ofNat_eq (by omega)⟩
          · rw [if_neg h2]
            split
            · left; exact ⟨rfl, rfl⟩
            · rename_i c t
              have hc := c.isLt
              split
              · left; exact ⟨rfl, rfl⟩
              · rename_i hc1
                simp only [isCont, Bool.not_eq_true', Bool.and_eq_false_iff, decide_eq_false_iff_not] at hc1
                by_cases h3 : n = 3
                · subst h3
                  right
                  rw [if_pos rfl]
                  have hr : (a.toNat = 0xE0 ∧ lo = 0xA0 ∧ hi = 0xBF) ∨ (a.toNat = 0xED ∧ lo = 0x80 ∧ hi = 0x9F) ∨
                      (0xE1 ≤ a.toNat ∧ a.toNat ≤ 0xEF ∧ lo = 0x80 ∧ hi = 0xBF) := by omega
                  unfold encodeRune
                  simp only
                  rw [if_neg (by omega), if_neg (by omega), if_pos (by omega)]
                  refine ⟨?_, by omega, by omega⟩
                  simp only [List.take_succ_cons, List.take_zero, List.cons.injEq, and_true]
                  exact ⟨ofNat_eq (by omega), ofNat_eq (by omega), ofNat_eq (by omega)⟩
                · rw [if_neg h3]
                  split
                  · left; exact ⟨rfl, rfl⟩
                  · rename_i d t
                    have hd := d.isLt
                    split
                    · left; exact ⟨rfl, rfl⟩
                    · rename_i hd1
                      simp only [isCont, Bool.not_eq_true', Bool.and_eq_false_iff, decide_eq_false_iff_not] at hd1
                      right
                      have hr : (a.toNat = 0xF0 ∧ lo = 0x90 ∧ hi = 0xBF) ∨ (a.toNat = 0xF4 ∧ lo = 0x80 ∧ hi = 0x8F) ∨
                          (0xF1 ≤ a.toNat ∧ a.toNat ≤ 0xF3 ∧ lo = 0x80 ∧ hi = 0xBF) := by omega
                      unfold encodeRune
                      simp only
                      rw [if_neg (by omega), if_neg (by omega), if_neg (by omega)]
                      refine ⟨?_, by omega, by omega⟩
                      simp only [List.take_succ_cons, List.take_zero, List.cons.injEq, and_true]
                      exact ⟨ofNat_eq (by omega), ofNat_eq (by omega), ofNat_eq (by omega), ofNat_eq (by omega)⟩

/-- The value of a digit in base 16. -/
def hexVal (c : Byte) : Nat := if c.toNat < 58 then c.toNat - 48 else c.toNat - 87

/-- The value of a number in base 16. -/
def hexNum : Bytes → Nat
  | [] => 0
  | c :: t => 16 ^ t.length * hexVal c + hexNum t

theorem hexVal_lowerHex {n : Nat} (h : n < 16) : hexVal (lowerHex n) = n := by
  unfold hexVal lowerHex
  by_cases h' : n < 10 <;> simp only [h', if_true, if_false, BitVec.toNat_ofNat] <;> split <;> omega

theorem hexDigits_length : ∀ k r, (hexDigits k r).length = k
  | 0, _ => rfl
  | k + 1, r => by simp [hexDigits, hexDigits_length k r]

theorem hexNum_hexDigits : ∀ k r, hexNum (hexDigits k r) = r % 16 ^ k
  | 0, r => by simp [hexDigits, hexNum, Nat.mod_one]
  | k + 1, r => by
    rw [hexDigits, hexNum, hexVal_lowerHex (Nat.mod_lt _ (by omega)), hexNum_hexDigits k r, hexDigits_length, Nat.mod_pow_succ]
    omega

/-- What follows a backslash: the bytes denoted, and how many bytes denote them. -/
def unescape : Bytes → Bytes × Nat
  | [] => ([], 0)
  | c :: t =>
    if c = 97#8 then ([7#8], 1)
    else if c = 98#8 then ([8#8], 1)
    else if c = 102#8 then ([12#8], 1)
    else if c = 110#8 then ([10#8], 1)
    else if c = 114#8 then ([13#8], 1)
    else if c = 116#8 then ([9#8], 1)
    else if c = 118#8 then ([11#8], 1)
    else if c = 120#8 then ([BitVec.ofNat 8 (hexNum (t.take 2))], 3)
    else if c = 117#8 then (encodeRune (hexNum (t.take 4)), 5)
    else if c = 85#8 then (encodeRune (hexNum (t.take 8)), 9)
    else ([c], 1)

/-- The string denoted by a text up to the next quote, and what follows it. -/
def unquote : Nat → Bytes → Bytes × Bytes
  | 0, t => ([], t)
  | _, [] => ([], [])
  | fuel + 1, c :: t =>
    if c = 34#8 then ([], t)
    else if c = 92#8 then
      ((unescape t).1 ++ (unquote fuel (t.drop (unescape t).2)).1, (unquote fuel (t.drop (unescape t).2)).2)
    else (c :: (unquote fuel t).1, (unquote fuel t).2)

theorem unquote_escape (fuel : Nat) (e d r : Bytes) (h : unescape (e ++ r) = (d, e.length)) :
    unquote (fuel + 1) (92#8 :: (e ++ r)) = (d ++ (unquote fuel r).1, (unquote fuel r).2) := by
  rw [unquote, if_neg (by decide), if_pos rfl, h]
  simp

theorem unquote_raw : ∀ (p : Bytes) (fuel : Nat) (r : Bytes), (∀ c ∈ p, c ≠ 34#8 ∧ c ≠ 92#8) →
    unquote (p.length + fuel) (p ++ r) = (p ++ (unquote fuel r).1, (unquote fuel r).2)
  | [], fuel, r, _ => by simp
  | c :: p, fuel, r, h => by
    have hc := h c (by simp)
    rw [show (c :: p).length + fuel = (p.length + fuel) + 1 by simp; omega, List.cons_append, unquote, if_neg hc.1, if_neg hc.2,
      unquote_raw p fuel r fun c hc => h c (by simp [hc])]
    simp

theorem unescape_x (x : Nat) (r : Bytes) (h : x < 256) : unescape ((120#8 :: hexDigits 2 x) ++ r) = ([BitVec.ofNat 8 x], 3) := by
  rw [List.cons_append, unescape]
  simp only [BitVec.reduceEq, if_false, if_true]
  rw [List.take_left' (hexDigits_length _ _), hexNum_hexDigits, Nat.mod_eq_of_lt (by omega)]

theorem unescape_u (x : Nat) (r : Bytes) (h : x < 0x10000) : unescape ((117#8 :: hexDigits 4 x) ++ r) = (encodeRune x, 5) := by
  rw [List.cons_append, unescape]
  simp only [BitVec.reduceEq, if_false, if_true]
  rw [List.take_left' (hexDigits_length _ _), hexNum_hexDigits, Nat.mod_eq_of_lt (by omega)]

theorem unescape_U (x : Nat) (r : Bytes) (h : x < 0x100000000) : unescape ((85#8 :: hexDigits 8 x) ++ r) = (encodeRune x, 9) := by
  rw [List.cons_append, unescape]
  simp only [BitVec.reduceEq, if_false, if_true]
  rw [List.take_left' (hexDigits_length _ _), hexNum_hexDigits, Nat.mod_eq_of_lt (by omega)]

theorem encodeRune_raw {x : Nat} (h1 : x ≠ 34) (h2 : x ≠ 92) (h : x < 0x110000) : ∀ c ∈ encodeRune x, c ≠ 34#8 ∧ c ≠ 92#8 := by
  have key : ∀ n : Nat, n < 256 → n ≠ 34 → n ≠ 92 → BitVec.ofNat 8 n ≠ 34#8 ∧ BitVec.ofNat 8 n ≠ 92#8 := by
    intro n hn a b
    constructor <;> intro h <;> have := congrArg BitVec.toNat h <;> simp only [BitVec.toNat_ofNat] at this <;> omega
  unfold encodeRune
  intro c hc
  split at hc
  · simp only [List.mem_singleton] at hc; subst hc; exact key _ (by omega) h1 h2
  · split at hc
    · simp only [List.mem_cons, List.not_mem_nil, or_false] at hc
      rcases hc with rfl | rfl <;> exact key _ (by omega) (by omega) (by omega)
    · split at hc
      · simp only [List.mem_cons, List.not_mem_nil, or_false] at hc
        rcases hc with rfl | rfl | rfl <;> exact key _ (by omega) (by omega) (by omega)
      · simp only [List.mem_cons, List.not_mem_nil, or_false] at hc
        rcases hc with rfl | rfl | rfl | rfl <;> exact key _ (by omega) (by omega) (by omega)

theorem unquote_rune (isPrint : Nat → Bool) {x : Nat} (h : x < 0x110000) (r : Bytes) : ∃ k, k ≤ (escapeRune isPrint x).length ∧
    ∀ fuel, unquote (k + fuel) (escapeRune isPrint x ++ r) = (encodeRune x ++ (unquote fuel r).1, (unquote fuel r).2) := by
  have esc : ∀ (e : Bytes), unescape (e ++ r) = (encodeRune x, e.length) → escapeRune isPrint x = 92#8 :: e →
      ∃ k, k ≤ (escapeRune isPrint x).length ∧
        ∀ fuel, unquote (k + fuel) (escapeRune isPrint x ++ r) = (encodeRune x ++ (unquote fuel r).1, (unquote fuel r).2) := by
    intro e h1 h2
    refine ⟨1, by rw [h2]; simp, fun fuel => ?_⟩
    rw [Nat.add_comm, h2]
    exact unquote_escape fuel e _ r h1
  have enc : x < 128 → encodeRune x = [BitVec.ofNat 8 x] := fun h => by rw [encodeRune, if_pos h]
  by_cases h0 : x = 34 ∨ x = 92
  · refine esc [BitVec.ofNat 8 x] ?_ (by rw [escapeRune, if_pos h0])
    rcases h0 with rfl | rfl <;> rfl
  by_cases h1 : isPrint x = true
  · rw [escapeRune, if_neg h0, if_pos h1]
    exact ⟨_, Nat.le_refl _, fun fuel => unquote_raw _ fuel r (encodeRune_raw (by omega) (by omega) h)⟩
  have hd : escapeRune isPrint x = if x = 7 then str "\\a" else if x = 8 then str "\\b" else if x = 12 then str "\\f"
    else if x = 10 then str "\\n" else if x = 13 then str "\\r" else if x = 9 then str "\\t" else if x = 11 then str "\\v"
    else if x < 32 ∨ x = 127 then str "\\x" ++ hexDigits 2 x else if x < 0x10000 then str "\\u" ++ hexDigits 4 x
    else str "\\U" ++ hexDigits 8 x := by rw [escapeRune, if_neg h0, if_neg h1]
  by_cases h7 : x = 7
  · subst h7; exact esc [97#8] rfl hd
  rw [if_neg h7] at hd
  by_cases h8 : x = 8
  · subst h8; exact esc [98#8] rfl hd
  rw [if_neg h8] at hd
  by_cases h12 : x = 12
  · subst h12; exact esc [102#8] rfl hd
  rw [if_neg h12] at hd
  by_cases h10 : x = 10
  · subst h10; exact esc [110#8] rfl hd
  rw [if_neg h10] at hd
  by_cases h13 : x = 13
  · subst h13; exact esc [114#8] rfl hd
  rw [if_neg h13] at hd
  by_cases h9 : x = 9
  · subst h9; exact esc [116#8] rfl hd
  rw [if_neg h9] at hd
  by_cases h11 : x = 11
  · subst h11; exact esc [118#8] rfl hd
  rw [if_neg h11] at hd
  by_cases hx : x < 32 ∨ x = 127
  · rw [if_pos hx] at hd
    exact esc (120#8 :: hexDigits 2 x) (by rw [unescape_x _ _ (by omega), enc (by omega)]; rfl) hd
  rw [if_neg hx] at hd
  by_cases hu : x < 0x10000
  · rw [if_pos hu] at hd
    exact esc (117#8 :: hexDigits 4 x) (by rw [unescape_u _ _ (by omega)]; rfl) hd
  · rw [if_neg hu] at hd
    exact esc (85#8 :: hexDigits 8 x) (by rw [unescape_U _ _ (by omega)]; rfl) hd

theorem unquote_loop (isPrint : Nat → Bool) (r : Bytes) : ∀ (n : Nat) (s : Bytes), s.length ≤ n → ∃ k,
    k ≤ (quoteLoop isPrint n s).length ∧
    ∀ fuel, unquote (k + fuel) (quoteLoop isPrint n s ++ r) = (s ++ (unquote fuel r).1, (unquote fuel r).2)
  | 0, [], _ => ⟨0, by simp, fun fuel => by simp [quoteLoop]⟩
  | n + 1, [], _ => ⟨0, by simp, fun fuel => by simp [quoteLoop]⟩
  | n + 1, a :: t, hl => by
    unfold quoteLoop
    split
    · obtain ⟨k, hk, hq⟩ := unquote_loop isPrint r n t (by simpa using hl)
      refine ⟨k + 1, by simp [str]; omega, fun fuel => ?_⟩
      have := unquote_escape (k + fuel) (120#8 :: hexDigits 2 a.toNat) [a] (quoteLoop isPrint n t ++ r)
        (by rw [unescape_x _ _ a.isLt]; simp [hexDigits_length])
      rw [hq fuel] at this
      rw [show k + 1 + fuel = k + fuel + 1 by omega, List.append_assoc]
      exact this
    · rename_i hne
      obtain ⟨h1, h2, h3⟩ := (decodeRune_spec a t).resolve_left hne
      generalize decodeRune (a :: t) = d at *
      obtain ⟨k, hk, hq⟩ := unquote_loop isPrint r n ((a :: t).drop d.2) (by simp at hl ⊢; omega)
      obtain ⟨j, hj, hp⟩ := unquote_rune isPrint h3 (quoteLoop isPrint n ((a :: t).drop d.2) ++ r)
      refine ⟨j + k, by rw [List.length_append]; omega, fun fuel => ?_⟩
      rw [List.append_assoc, Nat.add_assoc, hp, hq, h1, ← List.append_assoc, List.take_append_drop]

/-- A quoted string can be read back, whatever follows it. -/
theorem unquote_quote (isPrint : Nat → Bool) (s r : Bytes) :
    ∀ fuel, (quote isPrint s).length ≤ fuel → unquote fuel ((quote isPrint s).drop 1 ++ r) = (s, r) := by
  intro fuel hf
  unfold quote at hf ⊢
  rw [List.drop_one, List.tail_cons, List.append_assoc]
  obtain ⟨k, hk, hq⟩ := unquote_loop isPrint ([34#8] ++ r) s.length s (Nat.le_refl _)
  simp only [List.length_cons, List.length_append] at hf
  obtain ⟨f, rfl⟩ : ∃ f, fuel = k + (f + 1) := ⟨fuel - k - 1, by omega⟩
  rw [hq]
  simp [unquote]

/-- A quoted string determines the string and where it ends. -/
theorem quote_unique (isPrint : Nat → Bool) {s t r q : Bytes} (h : quote isPrint s ++ r = quote isPrint t ++ q) : s = t ∧ r = q := by
  have h' := congrArg (List.drop 1) h
  rw [List.drop_append_of_le_length (by simp [quote]), List.drop_append_of_le_length (by simp [quote])] at h'
  have h1 := unquote_quote isPrint s r ((quote isPrint s).length + (quote isPrint t).length) (by omega)
  have h2 := unquote_quote isPrint t q ((quote isPrint s).length + (quote isPrint t).length) (by omega)
  rw [h', h2] at h1
  simp only [Prod.mk.injEq] at h1
  exact ⟨h1.1.symm, h1.2.symm⟩

end Go

import Verif.Go.Basic
/-!
# encoding/base64, StdEncoding

The Go library is not part of /repo; this is a model of the part of it that rbxlx/codec.go uses.
-/
namespace Go

/-- The character for a 6 bit number. -/
def b64Char (n : Nat) : Byte :=
  BitVec.ofNat 8 (if n < 26 then 65 + n else if n < 52 then 71 + n else if n < 62 then n - 4
    else if n = 62 then 43 else 47)

/-- The 6 bit number for a character of the alphabet. -/
def b64Value (c : Byte) : Option Nat :=
  if 65 ≤ c.toNat ∧ c.toNat ≤ 90 then some (c.toNat - 65)
  else if 97 ≤ c.toNat ∧ c.toNat ≤ 122 then some (c.toNat - 71)
  else if 48 ≤ c.toNat ∧ c.toNat ≤ 57 then some (c.toNat + 4)
  else if c.toNat = 43 then some 62
  else if c.toNat = 47 then some 63
  else none

/-- The four characters for three bytes. -/
def b64Quad (a b c : Byte) : Bytes :=
  let n := a.toNat * 65536 + b.toNat * 256 + c.toNat
  [b64Char (n / 262144), b64Char (n / 4096 % 64), b64Char (n / 64 % 64), b64Char (n % 64)]

/-- `EncodeToString`. -/
def b64Encode : Bytes → Bytes
  | [] => []
  | [a] => (b64Quad a 0#8 0#8).take 2 ++ [61#8, 61#8]
  | [a, b] => (b64Quad a b 0#8).take 3 ++ [61#8]
  | a :: b :: c :: rest => b64Quad a b c ++ b64Encode rest

/-- The bytes of a quantum given by the 24 bit number `n`. -/
def b64Bytes (n : Nat) : Bytes :=
  [BitVec.ofNat 8 (n / 65536), BitVec.ofNat 8 (n / 256 % 256), BitVec.ofNat 8 (n % 256)]

/-- Decode quanta of four characters; padding is accepted in the last one only. -/
def b64Quanta : Bytes → Option Bytes
  | [] => some []
  | a :: b :: c :: d :: rest =>
    match b64Value a, b64Value b with
    | some x, some y =>
      if c = 61#8 then
        if d = 61#8 ∧ rest = [] then some ((b64Bytes (x * 262144 + y * 4096)).take 1) else none
      else
        match b64Value c with
        | none => none
        | some z =>
          if d = 61#8 then
            if rest = [] then some ((b64Bytes (x * 262144 + y * 4096 + z * 64)).take 2) else none
          else
            match b64Value d, b64Quanta rest with
            | some w, some r => some (b64Bytes (x * 262144 + y * 4096 + z * 64 + w) ++ r)
            | _, _ => none
    | _, _ => none
  | _ => none

/-- `io.ReadAll(base64.NewDecoder(base64.StdEncoding, strings.NewReader(s)))`; `none` is an error.
Carriage returns and line feeds are skipped. Simplified: the Go decoder works on blocks of 1024
characters and accepts padding at the end of any block; here it is accepted at the end only. -/
def b64Decode (s : Bytes) : Option Bytes :=
  b64Quanta (s.filter fun c => decide (c ≠ 13#8) && decide (c ≠ 10#8))

/-! ## Lemmas -/

set_option linter.unusedSimpArgs false

theorem b64Char_toNat {n : Nat} (h : n < 64) :
    (b64Char n).toNat = if n < 26 then 65 + n else if n < 52 then 71 + n else if n < 62 then n - 4
      else if n = 62 then 43 else 47 := by
  unfold b64Char
  rw [BitVec.toNat_ofNat]
  split
  · omega
  · split
    · omega
    · split
      · omega
      · split <;> rfl

theorem b64Value_char {n : Nat} (h : n < 64) : b64Value (b64Char n) = some n := by
  unfold b64Value
  rw [b64Char_toNat h]
  by_cases h1 : n < 26
  · simp only [h1, if_true]
    rw [if_pos (by omega)]; congr 1; omega
  · by_cases h2 : n < 52
    · simp only [h1, h2, if_true, if_false]
      rw [if_neg (by omega), if_pos (by omega)]; congr 1; omega
    · by_cases h3 : n < 62
      · simp only [h1, h2, h3, if_true, if_false]
        rw [if_neg (by omega), if_neg (by omega), if_pos (by omega)]; congr 1; omega
      · by_cases h4 : n = 62
        · subst h4; rfl
        · have : n = 63 := by omega
          subst this; rfl

theorem b64Char_range {n : Nat} (h : n < 64) : 43 ≤ (b64Char n).toNat ∧ (b64Char n).toNat ≤ 122 ∧
    (b64Char n).toNat ≠ 61 ∧ (b64Char n).toNat ≠ 62 ∧ (b64Char n).toNat ≠ 60 := by
  rw [b64Char_toNat h]
  split
  · omega
  · split
    · omega
    · split
      · omega
      · split <;> omega

theorem b64Char_ne_pad {n : Nat} (h : n < 64) : b64Char n ≠ 61#8 := by
  intro e
  have := (b64Char_range h).2.2.1
  rw [e] at this
  exact this rfl

theorem b64Bytes_quad (a b c : Byte) :
    b64Bytes (a.toNat * 65536 + b.toNat * 256 + c.toNat) = [a, b, c] := by
  have ha := a.isLt
  have hb := b.isLt
  have hc := c.isLt
  unfold b64Bytes
  rw [show (a.toNat * 65536 + b.toNat * 256 + c.toNat) / 65536 = a.toNat by omega,
    show (a.toNat * 65536 + b.toNat * 256 + c.toNat) / 256 % 256 = b.toNat by omega,
    show (a.toNat * 65536 + b.toNat * 256 + c.toNat) % 256 = c.toNat by omega]
  simp

theorem sextets (n : Nat) :
    n / 262144 * 262144 + n / 4096 % 64 * 4096 + n / 64 % 64 * 64 + n % 64 = n := by
  have h1 : n / 64 = n / 4096 * 64 + n / 64 % 64 := by
    have : n / 4096 = n / 64 / 64 := by rw [Nat.div_div_eq_div_mul]
    omega
  have h2 : n / 4096 = n / 262144 * 64 + n / 4096 % 64 := by
    have : n / 262144 = n / 4096 / 64 := by rw [Nat.div_div_eq_div_mul]
    omega
  omega

theorem b64Quanta_encode : ∀ s : Bytes, b64Quanta (b64Encode s) = some s
  | [] => rfl
  | [a] => by
    have ha := a.isLt
    have h := b64Bytes_quad a 0#8 0#8
    simp only [BitVec.toNat_ofNat, Nat.zero_mod, Nat.zero_mul, Nat.add_zero] at h
    simp only [b64Encode, b64Quad, List.take, List.cons_append, List.nil_append, BitVec.toNat_ofNat,
      Nat.zero_mod, Nat.zero_mul, Nat.add_zero, b64Quanta]
    rw [b64Value_char (by omega), b64Value_char (by omega)]
    simp only [if_true, and_self]
    rw [show a.toNat * 65536 / 262144 * 262144 + a.toNat * 65536 / 4096 % 64 * 4096 = a.toNat * 65536 by omega, h]
    rfl
  | [a, b] => by
    have ha := a.isLt
    have hb := b.isLt
    have h := b64Bytes_quad a b 0#8
    simp only [BitVec.toNat_ofNat, Nat.zero_mod, Nat.zero_mul, Nat.add_zero] at h
    simp only [b64Encode, b64Quad, List.take, List.cons_append, List.nil_append, BitVec.toNat_ofNat,
      Nat.zero_mod, Nat.add_zero, b64Quanta]
    rw [b64Value_char (by omega), b64Value_char (by omega), b64Value_char (by omega)]
    simp only [if_true]
    rw [if_neg (b64Char_ne_pad (by omega))]
    rw [show (a.toNat * 65536 + b.toNat * 256) / 262144 * 262144 +
        (a.toNat * 65536 + b.toNat * 256) / 4096 % 64 * 4096 +
        (a.toNat * 65536 + b.toNat * 256) / 64 % 64 * 64 = a.toNat * 65536 + b.toNat * 256 by omega, h]
    rfl
  | a :: b :: c :: rest => by
    have ha := a.isLt
    have hb := b.isLt
    have hc := c.isLt
    have ih := b64Quanta_encode rest
    simp only [b64Encode, b64Quad, List.cons_append, List.nil_append, b64Quanta]
    generalize hn : a.toNat * 65536 + b.toNat * 256 + c.toNat = n
    rw [b64Value_char (by omega), b64Value_char (by omega), b64Value_char (by omega),
      b64Value_char (by omega), ih]
    simp only
    rw [if_neg (b64Char_ne_pad (by omega)), if_neg (b64Char_ne_pad (by omega))]
    rw [sextets, ← hn, b64Bytes_quad]
    rfl

/-- The characters of the encoding: letters, digits, `+`, `/`, `=`. -/
theorem b64Encode_bytes : ∀ (s : Bytes), ∀ c ∈ b64Encode s,
    43 ≤ c.toNat ∧ c.toNat ≤ 122 ∧ c.toNat ≠ 62 ∧ c.toNat ≠ 60
  | [] => by simp [b64Encode]
  | [a] => by
    have ha := a.isLt
    intro c hc
    simp only [b64Encode, b64Quad, List.take, List.cons_append, List.nil_append, List.mem_cons,
      List.not_mem_nil, or_false, BitVec.toNat_ofNat, Nat.zero_mod, Nat.zero_mul, Nat.add_zero] at hc
    rcases hc with rfl | rfl | rfl | rfl
    · have := b64Char_range (n := a.toNat * 65536 / 262144) (by omega); omega
    · have := b64Char_range (n := a.toNat * 65536 / 4096 % 64) (by omega); omega
    · decide
    · decide
  | [a, b] => by
    have ha := a.isLt
    have hb := b.isLt
    intro c hc
    simp only [b64Encode, b64Quad, List.take, List.cons_append, List.nil_append, List.mem_cons,
      List.not_mem_nil, or_false, BitVec.toNat_ofNat, Nat.zero_mod, Nat.add_zero] at hc
    generalize hn : a.toNat * 65536 + b.toNat * 256 = n at *
    rcases hc with rfl | rfl | rfl | rfl
    · have := b64Char_range (n := n / 262144) (by omega); omega
    · have := b64Char_range (n := n / 4096 % 64) (by omega); omega
    · have := b64Char_range (n := n / 64 % 64) (by omega); omega
    · decide
  | a :: b :: c :: rest => by
    have ha := a.isLt
    have hb := b.isLt
    have hc := c.isLt
    intro x hx
    simp only [b64Encode, b64Quad, List.cons_append, List.nil_append, List.mem_cons] at hx
    generalize hn : a.toNat * 65536 + b.toNat * 256 + c.toNat = n at *
    rcases hx with rfl | rfl | rfl | rfl | hx
    · have := b64Char_range (n := n / 262144) (by omega); omega
    · have := b64Char_range (n := n / 4096 % 64) (by omega); omega
    · have := b64Char_range (n := n / 64 % 64) (by omega); omega
    · have := b64Char_range (n := n % 64) (by omega); omega
    · exact b64Encode_bytes rest x hx

theorem b64Filter_encode (s : Bytes) :
    (b64Encode s).filter (fun c => decide (c ≠ 13#8) && decide (c ≠ 10#8)) = b64Encode s := by
  rw [List.filter_eq_self]
  intro c hc
  have h := b64Encode_bytes s c hc
  have h1 : c ≠ 13#8 := by rintro rfl; revert h; decide
  have h2 : c ≠ 10#8 := by rintro rfl; revert h; decide
  simp [h1, h2]

/-- Decoding what remains of the encoding after line breaks are removed. -/
theorem b64Decode_lines {s t : Bytes}
    (h : t.filter (fun c => decide (c ≠ 10#8)) = b64Encode s) : b64Decode t = some s := by
  unfold b64Decode
  have : t.filter (fun c => decide (c ≠ 13#8) && decide (c ≠ 10#8)) = b64Encode s := by
    rw [← b64Filter_encode s, ← h, List.filter_filter]
    congr 1
    funext c
    by_cases h1 : c = 13#8 <;> by_cases h2 : c = 10#8 <;> simp [h1, h2]
  rw [this, b64Quanta_encode]

theorem b64Decode_encode (s : Bytes) : b64Decode (b64Encode s) = some s := by
  rw [b64Decode, b64Filter_encode, b64Quanta_encode]

end Go

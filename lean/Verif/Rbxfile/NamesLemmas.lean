import Verif.Rbxfile.Names
import Verif.Spec.Hex
/-!
# Lemmas about names and hexadecimal ids
-/
namespace Rbxfile
open Go Spec

/-- The digits of bytes. -/
def hexDigits (table : Bytes) (b : Bytes) : Bytes :=
  b.flatMap fun (x : Byte) => [hexAt table (x >>> 4), hexAt table (x &&& 0x0F#8)]

theorem hexLoop_eq (table : Bytes) : ∀ (n : Nat) (buf : Bytes), 2 * n ≤ buf.length →
    hexLoop table n buf = hexDigits table (buf.take n) ++ buf.drop (2 * n)
  | 0, buf, _ => by simp [hexLoop, hexDigits]
  | i + 1, buf, h => by
    simp only [hexLoop]
    have hi : i < buf.length := by omega
    obtain ⟨x, hx⟩ : ∃ x, buf[i]? = some x := ⟨buf[i], by simp [hi]⟩
    rw [hx]
    have h2 : (buf.set (i * 2 + 1) (hexAt table (x &&& 0x0F#8)))[i]? = some x := by
      rw [List.getElem?_set_ne (by omega), hx]
    simp only [Option.getD_some]
    rw [h2, hexLoop_eq table i _ (by simp; omega)]
    have e1 : ((buf.set (i * 2 + 1) (hexAt table (x &&& 0x0F#8))).set (i * 2)
        (hexAt table (x >>> 4))).take i = buf.take i := by
      rw [List.take_set_of_le (by omega), List.take_set_of_le (by omega)]
    have e2 : ((buf.set (i * 2 + 1) (hexAt table (x &&& 0x0F#8))).set (i * 2)
        (hexAt table (x >>> 4))).drop (2 * i) =
        [hexAt table (x >>> 4), hexAt table (x &&& 0x0F#8)] ++ buf.drop (2 * (i + 1)) := by
      apply List.ext_getElem?
      intro k
      simp only [List.getElem?_drop, List.getElem?_append, List.length_cons, List.length_nil]
      rcases k with _ | _ | k
      · simp [Nat.mul_comm i 2]
        rw [List.getElem?_set_self (by simp; omega)]
      · simp
        rw [List.getElem?_set_ne (by omega), Nat.mul_comm i 2, List.getElem?_set_self (by omega)]
      · simp
        rw [List.getElem?_set_ne (by omega), List.getElem?_set_ne (by omega)]
        congr 1
        omega
    simp only [Option.getD_some]
    rw [e1, e2]
    have e3 : buf.take (i + 1) = buf.take i ++ [x] := by
      rw [List.take_succ, hx]; rfl
    rw [e3]
    simp [hexDigits]

theorem foldl_none {α : Type} (f : Option Nat → α → Option Nat) (hf : ∀ c, f none c = none)
    (l : List α) : l.foldl f none = none := by
  induction l with
  | nil => rfl
  | cons c l ih => simp [hf, ih]

theorem parseHex_append (digits : String) (a b : Bytes) (n : Nat)
    (ha : parseHex digits a = some n) :
    parseHex digits (a ++ b) = b.foldl (fun n c => do return 16 * (← n) + (← digitOf digits c))
      (some n) := by
  simp only [parseHex] at ha ⊢
  rw [List.foldl_append, ha]

theorem digits_lower : ∀ x : Fin 256,
    digitOf "0123456789abcdef" (hexAt hexLower (BitVec.ofFin x >>> 4)) = some (x.val / 16) ∧
    digitOf "0123456789abcdef" (hexAt hexLower (BitVec.ofFin x &&& 0x0F#8)) = some (x.val % 16) := by
  decide +kernel
theorem digits_upper : ∀ x : Fin 256,
    digitOf "0123456789ABCDEF" (hexAt hexUpper (BitVec.ofFin x >>> 4)) = some (x.val / 16) ∧
    digitOf "0123456789ABCDEF" (hexAt hexUpper (BitVec.ofFin x &&& 0x0F#8)) = some (x.val % 16) := by
  decide +kernel

theorem parseHex_digits (digits : String) (table : Bytes)
    (ht : ∀ x : Fin 256, digitOf digits (hexAt table (BitVec.ofFin x >>> 4)) = some (x.val / 16) ∧
      digitOf digits (hexAt table (BitVec.ofFin x &&& 0x0F#8)) = some (x.val % 16)) (b : Bytes) :
    parseHex digits (hexDigits table b) = some (bigEndian b) := by
  have aux : ∀ (b : Bytes) (n : Nat), (hexDigits table b).foldl
      (fun n c => do return 16 * (← n) + (← digitOf digits c)) (some n) =
      some (b.foldl (fun n x => 256 * n + x.toNat) n) := by
    intro b
    induction b with
    | nil => intro n; rfl
    | cons x b ih =>
      intro n
      have h := ht x.toFin
      have e : (BitVec.ofFin x.toFin : Byte) = x := rfl
      rw [e] at h
      have hd : hexDigits table (x :: b) = hexAt table (x >>> 4) :: hexAt table (x &&& 0x0F#8) ::
        hexDigits table b := rfl
      rw [hd, List.foldl_cons, List.foldl_cons, h.1]
      have ex : (do return 16 * (← (do return 16 * (← some n) + (← some (x.toFin.val / 16)))) +
          (← digitOf digits (hexAt table (x &&& 0x0F#8))) : Option Nat) =
          some (256 * n + x.toNat) := by
        rw [h.2]
        have : x.toFin.val = x.toNat := rfl
        rw [this]
        show some _ = some _
        congr 1
        omega
      rw [ex, ih]; rfl
  exact aux b 0

theorem bigEndian_append (a b : Bytes) :
    bigEndian (a ++ b) = bigEndian a * 256 ^ b.length + bigEndian b := by
  have aux : ∀ (b : Bytes) (n : Nat), b.foldl (fun n x => 256 * n + x.toNat) n =
      n * 256 ^ b.length + b.foldl (fun n x => 256 * n + x.toNat) 0 := by
    intro b
    induction b with
    | nil => intro n; simp
    | cons x b ih =>
      intro n
      rw [List.foldl_cons, ih, List.foldl_cons, ih (256 * 0 + x.toNat)]
      simp only [List.length_cons, Nat.pow_succ, Nat.mul_zero, Nat.zero_add, Nat.add_mul]
      have : 256 * n * 256 ^ b.length = n * (256 ^ b.length * 256) := by
        rw [Nat.mul_comm 256 n, Nat.mul_assoc, Nat.mul_comm 256]
      omega
  simp only [bigEndian, List.foldl_append]
  exact aux b _

theorem bigEndian_cons (x : Byte) (b : Bytes) :
    bigEndian (x :: b) = x.toNat * 256 ^ b.length + bigEndian b := by
  have := bigEndian_append [x] b
  simpa [bigEndian] using this

theorem bigEndian_lt (b : Bytes) : bigEndian b < 256 ^ b.length := by
  induction b with
  | nil => simp [bigEndian]
  | cons x b ih =>
    rw [bigEndian_cons, List.length_cons, Nat.pow_succ]
    have hx := x.isLt
    have : (x.toNat + 1) * 256 ^ b.length ≤ 256 * 256 ^ b.length := Nat.mul_le_mul_right _ hx
    rw [Nat.add_mul] at this
    omega

theorem bigEndian_inj : ∀ {a b : Bytes}, a.length = b.length → bigEndian a = bigEndian b → a = b
  | [], b, h, _ => (List.length_eq_zero_iff.1 h.symm).symm
  | x :: a, [], h, _ => by simp at h
  | x :: a, y :: b, hl, he => by
    simp only [List.length_cons, Nat.add_right_cancel_iff] at hl
    rw [bigEndian_cons, bigEndian_cons, hl] at he
    have ha := bigEndian_lt a
    have hb := bigEndian_lt b
    rw [hl] at ha
    have hxy : x.toNat = y.toNat := by
      have h1 := congrArg (· / 256 ^ b.length) he
      rw [Nat.mul_comm, Nat.mul_add_div (by exact Nat.pow_pos (by decide)), Nat.div_eq_of_lt ha,
        Nat.mul_comm, Nat.mul_add_div (by exact Nat.pow_pos (by decide)), Nat.div_eq_of_lt hb] at h1
      omega
    rw [BitVec.eq_of_toNat_eq hxy, bigEndian_inj hl (by rw [hxy] at he; omega)]

theorem be32_bigEndian (v : BitVec 32) : bigEndian (be32 v) = v.toNat := by
  have := v.isLt
  simp only [bigEndian, be32, List.foldl_cons, List.foldl_nil, toNat_shr, toNat_byte0]
  omega
theorem be64_bigEndian (v : BitVec 64) : bigEndian (be64 v) = v.toNat := by
  have := v.isLt
  simp only [bigEndian, be64, List.foldl_cons, List.foldl_nil, toNat_shr, toNat_byte0]
  omega

theorem hexDigits_length (table b : Bytes) : (hexDigits table b).length = 2 * b.length := by
  induction b with
  | nil => rfl
  | cons x b ih =>
    have : hexDigits table (x :: b) = hexAt table (x >>> 4) :: hexAt table (x &&& 0x0F#8) ::
        hexDigits table b := rfl
    rw [this]; simp [ih]; omega

end Rbxfile

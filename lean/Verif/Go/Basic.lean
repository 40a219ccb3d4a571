/-!
# Go runtime vocabulary

Byte strings, results with errors and panics, and fixed-width integer
(de)serialisation as done by Go's `encoding/binary`.
-/

namespace Go

/-- Go `byte`. -/
abbrev Byte := BitVec 8
/-- Go `[]byte` / `string` contents. -/
abbrev Bytes := List Byte
/-- A Go `float32`, represented by its raw IEEE-754 bits (`math.Float32bits`). -/
abbrev F32 := BitVec 32
/-- A Go `float64`, represented by its raw IEEE-754 bits (`math.Float64bits`). -/
abbrev F64 := BitVec 64

/-- Error values that the modelled code can return. The exact texts are not modelled;
the constructors name the Go error type or message. -/
inductive Err where
  /-- `buflenError{exp, got}` (rbxl/values.go:555-562) -/
  | buflen (exp got : Nat)
  /-- `indexError{Index, Cause}` (rbxl/arrays.go:32-43) -/
  | index (i : Nat) (cause : Err)
  /-- `errUnknownType` (rbxl/errors.go) -/
  | unknownType (t : Byte)
  /-- any other error, identified by a tag -/
  | other (tag : String)
  /-- an error carrying one wrapped cause -/
  | wrap (tag : String) (cause : Err)
  deriving Repr, DecidableEq, Inhabited

/-- Outcome of a Go call: normal return, returned error, or run-time panic. -/
inductive Res (α : Type u) where
  | ok (a : α)
  | err (e : Err)
  | panic
  deriving Repr, DecidableEq

namespace Res

variable {α β γ : Type _}

protected def bind (x : Res α) (f : α → Res β) : Res β :=
  match x with
  | ok a => f a
  | err e => err e
  | panic => panic

instance : Monad Res where
  pure := ok
  bind := Res.bind

@[simp] theorem pure_eq (a : α) : (pure a : Res α) = ok a := rfl
@[simp] theorem ok_bind (a : α) (f : α → Res β) : (ok a >>= f) = f a := rfl
@[simp] theorem err_bind (e : Err) (f : α → Res β) : ((err e : Res α) >>= f) = err e := rfl
@[simp] theorem panic_bind (f : α → Res β) : ((panic : Res α) >>= f) = panic := rfl
@[simp] theorem ok_map (a : α) (f : α → β) : (f <$> (ok a : Res α)) = ok (f a) := rfl
@[simp] theorem err_map (e : Err) (f : α → β) : (f <$> (err e : Res α)) = err e := rfl
@[simp] theorem panic_map (f : α → β) : (f <$> (panic : Res α)) = panic := rfl

instance : LawfulMonad Res := LawfulMonad.mk'
  (id_map := by intro α x; cases x <;> rfl)
  (pure_bind := by intros; rfl)
  (bind_assoc := by intro α β γ x f g; cases x <;> rfl)

/-- The call returned normally. -/
def isOk : Res α → Prop
  | ok _ => True
  | _ => False

/-- The call returned an error. -/
def isErr : Res α → Prop
  | err _ => True
  | _ => False

@[simp] theorem isErr_err (e : Err) : (err e : Res α).isErr := trivial
@[simp] theorem isErr_ok (a : α) : ¬ (ok a : Res α).isErr := id
@[simp] theorem isErr_panic : ¬ (panic : Res α).isErr := id
@[simp] theorem isOk_ok (a : α) : (ok a : Res α).isOk := trivial
@[simp] theorem isOk_err (e : Err) : ¬ (err e : Res α).isOk := id
@[simp] theorem isOk_panic : ¬ (panic : Res α).isOk := id

instance (x : Res α) : Decidable x.isOk := match x with
  | ok _ => .isTrue trivial
  | err _ => .isFalse id
  | panic => .isFalse id
instance (x : Res α) : Decidable x.isErr := match x with
  | ok _ => .isFalse id
  | err _ => .isTrue trivial
  | panic => .isFalse id

/-- Replace the error, keep everything else. -/
def mapErr (f : Err → Err) : Res α → Res α
  | ok a => ok a
  | err e => err (f e)
  | panic => panic

@[simp] theorem mapErr_ok (f : Err → Err) (a : α) : (ok a).mapErr f = ok a := rfl
@[simp] theorem mapErr_err (f : Err → Err) (e : Err) : (err e : Res α).mapErr f = err (f e) := rfl
@[simp] theorem mapErr_panic (f : Err → Err) : (panic : Res α).mapErr f = panic := rfl

theorem bind_eq_ok {x : Res α} {f : α → Res β} {b : β} :
    (x >>= f) = ok b ↔ ∃ a, x = ok a ∧ f a = ok b := by
  cases x <;> simp

theorem bind_ne_panic {x : Res α} {f : α → Res β} (hx : x ≠ panic)
    (hf : ∀ a, x = ok a → f a ≠ panic) : (x >>= f) ≠ panic := by
  cases x <;> simp_all

/-- Every normal return satisfies `P`. -/
def All (P : α → Prop) (x : Res α) : Prop := ∀ a, x = ok a → P a

theorem All.bind {P : β → Prop} {x : Res α} {f : α → Res β} (h : ∀ a, All P (f a)) :
    All P (x >>= f) := by
  intro b hb
  obtain ⟨a, _, ha⟩ := bind_eq_ok.1 hb
  exact h a b ha

theorem All.bindOf {P : β → Prop} {Q : α → Prop} {x : Res α} {f : α → Res β}
    (hx : All Q x) (h : ∀ a, Q a → All P (f a)) : All P (x >>= f) := by
  intro b hb
  obtain ⟨a, h1, ha⟩ := bind_eq_ok.1 hb
  exact h a (hx a h1) b ha

theorem All.ok {P : α → Prop} {a : α} (h : P a) : All P (ok a) := by
  intro b hb; cases hb; exact h
theorem All.err {P : α → Prop} {e : Err} : All P (err e) := by intro b hb; cases hb
theorem All.panic {P : α → Prop} : All P (panic : Res α) := by intro b hb; cases hb

theorem All.mono {P Q : α → Prop} {x : Res α} (h : All P x) (hpq : ∀ a, P a → Q a) : All Q x :=
  fun a ha => hpq a (h a ha)

theorem All.mapErr {P : α → Prop} {x : Res α} {g : Err → Err} (h : All P x) :
    All P (x.mapErr g) := by
  cases x <;> first | exact h | exact All.err | exact All.panic

end Res

/-! ## `encoding/binary` -/

/-- `binary.LittleEndian.PutUint16`. -/
def le16 (v : BitVec 16) : Bytes := [v.setWidth 8, (v >>> 8).setWidth 8]
/-- `binary.LittleEndian.PutUint32`. -/
def le32 (v : BitVec 32) : Bytes :=
  [v.setWidth 8, (v >>> 8).setWidth 8, (v >>> 16).setWidth 8, (v >>> 24).setWidth 8]
/-- `binary.LittleEndian.PutUint64`. -/
def le64 (v : BitVec 64) : Bytes :=
  [v.setWidth 8, (v >>> 8).setWidth 8, (v >>> 16).setWidth 8, (v >>> 24).setWidth 8,
   (v >>> 32).setWidth 8, (v >>> 40).setWidth 8, (v >>> 48).setWidth 8, (v >>> 56).setWidth 8]
/-- `binary.BigEndian.PutUint32`. -/
def be32 (v : BitVec 32) : Bytes :=
  [(v >>> 24).setWidth 8, (v >>> 16).setWidth 8, (v >>> 8).setWidth 8, v.setWidth 8]
/-- `binary.BigEndian.PutUint64`. -/
def be64 (v : BitVec 64) : Bytes :=
  [(v >>> 56).setWidth 8, (v >>> 48).setWidth 8, (v >>> 40).setWidth 8, (v >>> 32).setWidth 8,
   (v >>> 24).setWidth 8, (v >>> 16).setWidth 8, (v >>> 8).setWidth 8, v.setWidth 8]

/-- The value `binary.LittleEndian.Uint16` computes from two bytes. -/
def mk16 (b0 b1 : Byte) : BitVec 16 := b0.setWidth 16 ||| (b1.setWidth 16 <<< 8)
/-- The value `binary.LittleEndian.Uint32` computes from four bytes (low byte first). -/
def mk32 (b0 b1 b2 b3 : Byte) : BitVec 32 :=
  b0.setWidth 32 ||| (b1.setWidth 32 <<< 8) ||| (b2.setWidth 32 <<< 16) ||| (b3.setWidth 32 <<< 24)
/-- The value `binary.LittleEndian.Uint64` computes from eight bytes (low byte first). -/
def mk64 (b0 b1 b2 b3 b4 b5 b6 b7 : Byte) : BitVec 64 :=
  b0.setWidth 64 ||| (b1.setWidth 64 <<< 8) ||| (b2.setWidth 64 <<< 16) ||| (b3.setWidth 64 <<< 24)
  ||| (b4.setWidth 64 <<< 32) ||| (b5.setWidth 64 <<< 40) ||| (b6.setWidth 64 <<< 48)
  ||| (b7.setWidth 64 <<< 56)

/-- `binary.LittleEndian.Uint16(b)` then `b = b[2:]`; panics when `b` is too short. -/
def readLe16 : Bytes → Res (BitVec 16 × Bytes)
  | b0 :: b1 :: r => .ok (mk16 b0 b1, r)
  | _ => .panic
/-- `binary.LittleEndian.Uint32(b)` then `b = b[4:]`; panics when `b` is too short. -/
def readLe32 : Bytes → Res (BitVec 32 × Bytes)
  | b0 :: b1 :: b2 :: b3 :: r => .ok (mk32 b0 b1 b2 b3, r)
  | _ => .panic
/-- `binary.LittleEndian.Uint64(b)` then `b = b[8:]`; panics when `b` is too short. -/
def readLe64 : Bytes → Res (BitVec 64 × Bytes)
  | b0 :: b1 :: b2 :: b3 :: b4 :: b5 :: b6 :: b7 :: r => .ok (mk64 b0 b1 b2 b3 b4 b5 b6 b7, r)
  | _ => .panic
/-- `binary.BigEndian.Uint32(b)` then `b = b[4:]`; panics when `b` is too short. -/
def readBe32 : Bytes → Res (BitVec 32 × Bytes)
  | b0 :: b1 :: b2 :: b3 :: r => .ok (mk32 b3 b2 b1 b0, r)
  | _ => .panic
/-- `binary.BigEndian.Uint64(b)` then `b = b[8:]`; panics when `b` is too short. -/
def readBe64 : Bytes → Res (BitVec 64 × Bytes)
  | b0 :: b1 :: b2 :: b3 :: b4 :: b5 :: b6 :: b7 :: r => .ok (mk64 b7 b6 b5 b4 b3 b2 b1 b0, r)
  | _ => .panic
/-- `b[0]` then `b = b[1:]`; panics when `b` is empty. -/
def readU8 : Bytes → Res (Byte × Bytes)
  | b0 :: r => .ok (b0, r)
  | _ => .panic


theorem or_shl (x y k : Nat) (h : x < 2 ^ k) : x ||| (y <<< k) = x + y * 2 ^ k := by
  rw [Nat.or_comm, ← Nat.shiftLeft_add_eq_or_of_lt h, Nat.shiftLeft_eq, Nat.add_comm]

theorem mk16_toNat (b0 b1 : Byte) : (mk16 b0 b1).toNat = b0.toNat + b1.toNat * 256 := by
  have h0 := b0.isLt; have h1 := b1.isLt
  have e1 : (b1.setWidth 16 <<< 8).toNat = b1.toNat <<< 8 := by
    simp [Nat.shiftLeft_eq]; omega
  simp only [mk16, BitVec.toNat_or, e1, BitVec.toNat_setWidth]
  rw [or_shl] <;> omega

theorem mk32_toNat (b0 b1 b2 b3 : Byte) : (mk32 b0 b1 b2 b3).toNat =
    b0.toNat + b1.toNat * 256 + b2.toNat * 65536 + b3.toNat * 16777216 := by
  have h0 := b0.isLt; have h1 := b1.isLt; have h2 := b2.isLt; have h3 := b3.isLt
  have e1 : (b1.setWidth 32 <<< 8).toNat = b1.toNat <<< 8 := by
    simp [Nat.shiftLeft_eq]; omega
  have e2 : (b2.setWidth 32 <<< 16).toNat = b2.toNat <<< 16 := by
    simp [Nat.shiftLeft_eq]; omega
  have e3 : (b3.setWidth 32 <<< 24).toNat = b3.toNat <<< 24 := by
    simp [Nat.shiftLeft_eq]; omega
  simp only [mk32, BitVec.toNat_or, e1, e2, e3, BitVec.toNat_setWidth]
  rw [or_shl _ _ 8, or_shl _ _ 16, or_shl _ _ 24] <;> omega

theorem mk64_toNat (b0 b1 b2 b3 b4 b5 b6 b7 : Byte) : (mk64 b0 b1 b2 b3 b4 b5 b6 b7).toNat =
    b0.toNat + b1.toNat * 256 + b2.toNat * 65536 + b3.toNat * 16777216 + b4.toNat * 2 ^ 32 +
    b5.toNat * 2 ^ 40 + b6.toNat * 2 ^ 48 + b7.toNat * 2 ^ 56 := by
  have h0 := b0.isLt; have h1 := b1.isLt; have h2 := b2.isLt; have h3 := b3.isLt
  have h4 := b4.isLt; have h5 := b5.isLt; have h6 := b6.isLt; have h7 := b7.isLt
  have e1 : (b1.setWidth 64 <<< 8).toNat = b1.toNat <<< 8 := by
    simp [Nat.shiftLeft_eq]; omega
  have e2 : (b2.setWidth 64 <<< 16).toNat = b2.toNat <<< 16 := by
    simp [Nat.shiftLeft_eq]; omega
  have e3 : (b3.setWidth 64 <<< 24).toNat = b3.toNat <<< 24 := by
    simp [Nat.shiftLeft_eq]; omega
  have e4 : (b4.setWidth 64 <<< 32).toNat = b4.toNat <<< 32 := by
    simp [Nat.shiftLeft_eq]; omega
  have e5 : (b5.setWidth 64 <<< 40).toNat = b5.toNat <<< 40 := by
    simp [Nat.shiftLeft_eq]; omega
  have e6 : (b6.setWidth 64 <<< 48).toNat = b6.toNat <<< 48 := by
    simp [Nat.shiftLeft_eq]; omega
  have e7 : (b7.setWidth 64 <<< 56).toNat = b7.toNat <<< 56 := by
    simp [Nat.shiftLeft_eq]; omega
  simp only [mk64, BitVec.toNat_or, e1, e2, e3, e4, e5, e6, e7, BitVec.toNat_setWidth]
  rw [or_shl _ _ 8, or_shl _ _ 16, or_shl _ _ 24, or_shl _ _ 32, or_shl _ _ 40, or_shl _ _ 48,
    or_shl _ _ 56] <;> omega

theorem toNat_shr {w : Nat} (v : BitVec w) (k : Nat) :
    (v >>> k).toNat = v.toNat / 2 ^ k := by
  simp [Nat.shiftRight_eq_div_pow]

theorem toNat_byte0 {w : Nat} (v : BitVec w) : (v.setWidth 8).toNat = v.toNat % 256 := by
  simp

theorem mk16_split (v : BitVec 16) : mk16 (v.setWidth 8) ((v >>> 8).setWidth 8) = v := by
  apply BitVec.eq_of_toNat_eq
  have := v.isLt
  simp only [mk16_toNat, toNat_shr, toNat_byte0]; omega

theorem mk32_split (v : BitVec 32) : mk32 (v.setWidth 8) ((v >>> 8).setWidth 8)
    ((v >>> 16).setWidth 8) ((v >>> 24).setWidth 8) = v := by
  apply BitVec.eq_of_toNat_eq
  have := v.isLt
  simp only [mk32_toNat, toNat_shr, toNat_byte0]; omega

theorem mk64_split (v : BitVec 64) : mk64 (v.setWidth 8) ((v >>> 8).setWidth 8)
    ((v >>> 16).setWidth 8) ((v >>> 24).setWidth 8) ((v >>> 32).setWidth 8)
    ((v >>> 40).setWidth 8) ((v >>> 48).setWidth 8) ((v >>> 56).setWidth 8) = v := by
  apply BitVec.eq_of_toNat_eq
  have := v.isLt
  simp only [mk64_toNat, toNat_shr, toNat_byte0]; omega

@[simp] theorem readLe16_le16 (v : BitVec 16) (r : Bytes) :
    readLe16 (le16 v ++ r) = .ok (v, r) := by simp [le16, readLe16, mk16_split]
@[simp] theorem readLe32_le32 (v : BitVec 32) (r : Bytes) :
    readLe32 (le32 v ++ r) = .ok (v, r) := by simp [le32, readLe32, mk32_split]
@[simp] theorem readLe64_le64 (v : BitVec 64) (r : Bytes) :
    readLe64 (le64 v ++ r) = .ok (v, r) := by simp [le64, readLe64, mk64_split]
@[simp] theorem readBe32_be32 (v : BitVec 32) (r : Bytes) :
    readBe32 (be32 v ++ r) = .ok (v, r) := by simp [be32, readBe32, mk32_split]
@[simp] theorem readBe64_be64 (v : BitVec 64) (r : Bytes) :
    readBe64 (be64 v ++ r) = .ok (v, r) := by simp [be64, readBe64, mk64_split]

@[simp] theorem le16_length (v : BitVec 16) : (le16 v).length = 2 := rfl
@[simp] theorem le32_length (v : BitVec 32) : (le32 v).length = 4 := rfl
@[simp] theorem le64_length (v : BitVec 64) : (le64 v).length = 8 := rfl
@[simp] theorem be32_length (v : BitVec 32) : (be32 v).length = 4 := rfl
@[simp] theorem be64_length (v : BitVec 64) : (be64 v).length = 8 := rfl

theorem le32_mk32 (b0 b1 b2 b3 : Byte) : le32 (mk32 b0 b1 b2 b3) = [b0, b1, b2, b3] := by
  have h0 := b0.isLt; have h1 := b1.isLt; have h2 := b2.isLt; have h3 := b3.isLt
  simp only [le32, List.cons.injEq, and_true]
  refine ⟨?_, ?_, ?_, ?_⟩ <;> apply BitVec.eq_of_toNat_eq <;>
    simp only [toNat_shr, toNat_byte0, mk32_toNat] <;> omega

theorem be32_mk32 (b0 b1 b2 b3 : Byte) : be32 (mk32 b3 b2 b1 b0) = [b0, b1, b2, b3] := by
  have := congrArg List.reverse (le32_mk32 b3 b2 b1 b0)
  simpa [le32, be32] using this

/-- Reading succeeds as soon as enough bytes are there, and advances by the width. -/
theorem readLe16_ok {b : Bytes} (h : 2 ≤ b.length) :
    ∃ v, readLe16 b = .ok (v, b.drop 2) := by
  match b, h with
  | _ :: _ :: r, _ => exact ⟨_, rfl⟩
theorem readLe32_ok {b : Bytes} (h : 4 ≤ b.length) :
    ∃ v, readLe32 b = .ok (v, b.drop 4) := by
  match b, h with
  | _ :: _ :: _ :: _ :: r, _ => exact ⟨_, rfl⟩
theorem readBe32_ok {b : Bytes} (h : 4 ≤ b.length) :
    ∃ v, readBe32 b = .ok (v, b.drop 4) := by
  match b, h with
  | _ :: _ :: _ :: _ :: r, _ => exact ⟨_, rfl⟩
theorem readLe64_ok {b : Bytes} (h : 8 ≤ b.length) :
    ∃ v, readLe64 b = .ok (v, b.drop 8) := by
  match b, h with
  | _ :: _ :: _ :: _ :: _ :: _ :: _ :: _ :: r, _ => exact ⟨_, rfl⟩
theorem readBe64_ok {b : Bytes} (h : 8 ≤ b.length) :
    ∃ v, readBe64 b = .ok (v, b.drop 8) := by
  match b, h with
  | _ :: _ :: _ :: _ :: _ :: _ :: _ :: _ :: r, _ => exact ⟨_, rfl⟩
theorem readU8_ok {b : Bytes} (h : 1 ≤ b.length) :
    ∃ v, readU8 b = .ok (v, b.drop 1) := by
  match b, h with
  | _ :: r, _ => exact ⟨_, rfl⟩

/-- A Go string constant as a byte list (ASCII only is used). -/
def str (s : String) : Bytes := s.toList.map (fun c => BitVec.ofNat 8 c.toNat)

end Go

import Verif.Rbxl.Values
/-! Helper lemmas about `Val.bytes` / `Val.fromBytes`. -/
namespace Rbxl
open Go

@[simp] theorem rd_bind {α β : Type} (x : Rd α) (f : α → Rd β) (b : Bytes) :
    (x >>= f) b = (x b >>= fun p => f p.1 p.2) := rfl
@[simp] theorem rd_pure {α : Type} (a : α) (b : Bytes) : (pure a : Rd α) b = .ok (a, b) := rfl

@[simp] theorem rd_map {α β : Type} (x : Rd α) (f : α → β) (b : Bytes) :
    (f <$> x : Rd β) b = (x b >>= fun p => .ok (f p.1, p.2)) := rfl

@[simp] theorem rdLe16_app (v : BitVec 16) (r : Bytes) : rdLe16 (le16 v ++ r) = .ok (v, r) :=
  readLe16_le16 v r
@[simp] theorem rdLe32_app (v : BitVec 32) (r : Bytes) : rdLe32 (le32 v ++ r) = .ok (v, r) :=
  readLe32_le32 v r
@[simp] theorem rdBe32_app (v : BitVec 32) (r : Bytes) : rdBe32 (be32 v ++ r) = .ok (v, r) :=
  readBe32_be32 v r
@[simp] theorem rdLe64_app (v : BitVec 64) (r : Bytes) : rdLe64 (le64 v ++ r) = .ok (v, r) :=
  readLe64_le64 v r
@[simp] theorem rdBe64_app (v : BitVec 64) (r : Bytes) : rdBe64 (be64 v ++ r) = .ok (v, r) :=
  readBe64_be64 v r
@[simp] theorem rdU8_cons (v : Byte) (r : Bytes) : rdU8 (v :: r) = .ok (v, r) := rfl

@[simp] theorem floatBytes_length (f : F32) : (floatBytes f).length = 4 := rfl
@[simp] theorem intBytes_length (f : BitVec 32) : (intBytes f).length = 4 := rfl
@[simp] theorem int64Bytes_length (f : BitVec 64) : (int64Bytes f).length = 8 := rfl
@[simp] theorem vec3Bytes_length (v : Vec3) : v.bytes.length = 12 := rfl
@[simp] theorem rotBytes_length (v : Rot) : v.bytes.length = 36 := rfl
@[simp] theorem quatBytes_length (a b c d : F32) : (quatBytes a b c d).length = 16 := rfl
@[simp] theorem nskBytes_length (v : NSK) : v.bytes.length = 12 := rfl
@[simp] theorem cskBytes_length (v : CSK) : v.bytes.length = 20 := rfl
@[simp] theorem stringBytes_length (s : Bytes) : (stringBytes s).length = 4 + s.length := by
  simp [stringBytes]

/-- A constant-size decoder reads back what the encoder wrote. -/
theorem constFrom_ok {α : Type} {n : Nat} {rd : Rd α} {b : Bytes} {v : α} {r : Bytes}
    (hl : n ≤ b.length) (h : rd b = .ok (v, r)) : constFrom n rd b = .ok (v, n) := by
  simp [constFrom, Nat.not_lt.mpr hl, h]

@[simp] theorem floatFrom_app (f : F32) (r : Bytes) :
    floatFrom (floatBytes f ++ r) = .ok (f, 4) := by
  apply constFrom_ok (r := r)
  · simp
  · simp [floatBytes, decode_encode_float]

@[simp] theorem intFrom_app (n : BitVec 32) (r : Bytes) :
    intFrom (intBytes n ++ r) = .ok (n, 4) := by
  apply constFrom_ok (r := r)
  · simp
  · simp [intBytes, decode_encode_zigzag32]

@[simp] theorem int64From_app (n : BitVec 64) (r : Bytes) :
    int64From (int64Bytes n ++ r) = .ok (n, 8) := by
  apply constFrom_ok (r := r)
  · simp
  · simp [int64Bytes, decode_encode_zigzag64]

theorem fromBytesP_ok {α : Type} {f : Bytes → Res (α × Nat)} {e r : Bytes} {v : α}
    (h : f (e ++ r) = .ok (v, e.length)) : fromBytesP f (e ++ r) = .ok (v, r) := by
  simp [fromBytesP, h]

@[simp] theorem floatP_app (f : F32) (r : Bytes) :
    fromBytesP floatFrom (floatBytes f ++ r) = .ok (f, r) := fromBytesP_ok (floatFrom_app f r)
@[simp] theorem intP_app (f : BitVec 32) (r : Bytes) :
    fromBytesP intFrom (intBytes f ++ r) = .ok (f, r) := fromBytesP_ok (intFrom_app f r)
@[simp] theorem int64P_app (f : BitVec 64) (r : Bytes) :
    fromBytesP int64From (int64Bytes f ++ r) = .ok (f, r) := fromBytesP_ok (int64From_app f r)

@[simp] theorem vec2From_app (x y : F32) (r : Bytes) :
    vec2From (floatBytes x ++ (floatBytes y ++ r)) = .ok ((x, y), 8) := by
  apply constFrom_ok (r := r)
  · simp; omega
  · simp

@[simp] theorem vec2P_app (x y : F32) (r : Bytes) :
    fromBytesP vec2From (floatBytes x ++ (floatBytes y ++ r)) = .ok ((x, y), r) := by
  have := fromBytesP_ok (f := vec2From) (e := floatBytes x ++ floatBytes y) (r := r) (v := (x, y))
    (by simp)
  simpa using this

@[simp] theorem vec3From_app (v : Vec3) (r : Bytes) :
    vec3From (v.bytes ++ r) = .ok (v, 12) := by
  apply constFrom_ok (r := r)
  · simp
  · simp [Vec3.bytes]

@[simp] theorem rdRot_app (v : Rot) (r : Bytes) : rdRot (v.bytes ++ r) = .ok (v, r) := by
  simp [rdRot, Rot.bytes]

@[simp] theorem rdQuat_app (x y z w : F32) (r : Bytes) :
    rdQuat (quatBytes x y z w ++ r) = .ok ((x, y, z, w), r) := by
  simp [rdQuat, quatBytes]

@[simp] theorem rdNSK_app (v : NSK) (r : Bytes) : rdNSK (v.bytes ++ r) = .ok (v, r) := by
  simp [rdNSK, NSK.bytes]
@[simp] theorem rdCSK_app (v : CSK) (r : Bytes) : rdCSK (v.bytes ++ r) = .ok (v, r) := by
  simp [rdCSK, CSK.bytes]

theorem rdMany_app {α : Type} {rd : Rd α} {enc : α → Bytes}
    (h : ∀ a r, rd (enc a ++ r) = .ok (a, r)) (l : List α) (r : Bytes) :
    rdMany rd l.length (l.flatMap enc ++ r) = .ok (l, r) := by
  induction l with
  | nil => rfl
  | cons a l ih => simp [rdMany, h, ih]

theorem len32_toNat {α : Type _} (l : List α) (h : l.length < 2 ^ 32) :
    (len32 l).toNat = l.length := by
  simp only [len32, BitVec.toNat_ofNat]; exact Nat.mod_eq_of_lt h

theorem checkLengthArray_app {α : Type} (k : Nat) (l : List α) (e r : Bytes)
    (hl : l.length < 2 ^ 32) (he : e.length = k * l.length) :
    checkLengthArray k (le32 (len32 l) ++ (e ++ r)) = .ok (e ++ r, l.length) := by
  simp only [checkLengthArray, readLe32_le32, Res.ok_bind, len32_toNat l hl, List.length_append,
    le32_length, he]
  rw [if_neg (by omega), if_neg (by omega)]; rfl

@[simp] theorem positionFrom_app (v : Vec3) (r : Bytes) :
    positionFrom (v.bytes ++ r) = .ok v := by simp [positionFrom]

theorem stringFrom_app (s r : Bytes) (h : s.length < 2 ^ 32) :
    stringFrom (stringBytes s ++ r) = .ok (s, 4 + s.length) := by
  simp only [stringFrom, stringBytes, List.append_assoc]
  rw [checkLengthArray_app 1 s s r h (by simp)]
  simp

theorem flatMap_length_const {α : Type} {enc : α → Bytes} {k : Nat}
    (h : ∀ a, (enc a).length = k) (l : List α) : (l.flatMap enc).length = k * l.length := by
  induction l with
  | nil => simp
  | cons a l ih => simp [h, ih, Nat.mul_add]; omega

theorem checkLengthCond_ok {cs : Byte → Nat} {c : Byte} {r : Bytes} (h : cs c ≤ r.length + 1) :
    checkLengthCond cs (c :: r) = .ok (c, r, cs c) := by
  simp only [checkLengthCond, if_neg (Nat.not_lt.mpr h)]

theorem readFlag_flagsByte6 (a b c d e f : Bool) :
    (readFlag (flagsByte [a, b, c, d, e, f]) 0 = a) ∧ (readFlag (flagsByte [a, b, c, d, e, f]) 1 = b) ∧
    (readFlag (flagsByte [a, b, c, d, e, f]) 2 = c) ∧ (readFlag (flagsByte [a, b, c, d, e, f]) 3 = d) ∧
    (readFlag (flagsByte [a, b, c, d, e, f]) 4 = e) ∧ (readFlag (flagsByte [a, b, c, d, e, f]) 5 = f) := by
  revert a b c d e f; decide

theorem readFlag_flagsByte3 (a b c : Bool) :
    (readFlag (flagsByte [a, b, c]) 0 = a) ∧ (readFlag (flagsByte [a, b, c]) 1 = b) ∧
    (readFlag (flagsByte [a, b, c]) 2 = c) := by
  revert a b c; decide

/-! ### lengths -/

theorem Val.bytes_length (v : Val) : v.bytes.length = v.bytesLen := by
  cases v <;> simp only [Val.bytes, Val.bytesLen] <;> try rfl
  case string s => simp
  case bool b => cases b <;> rfl
  case cframe sp r p => split <;> simp
  case cframeQuat sp _ _ _ _ p => split <;> simp
  case numberSequence ks => simp [flatMap_length_const nskBytes_length]
  case colorSequence ks => simp [flatMap_length_const cskBytes_length]
  case physicalProperties cp _ _ _ _ _ => by_cases h : cp = 0#8 <;> simp [h]
  case font fam w st c => simp; omega

/-! ### round trip -/

namespace Val

/-- Strings and sequences are shorter than 2^32, so that their length field is exact. -/
def lenOk : Val → Prop
  | string s => s.length < 2 ^ 32
  | numberSequence ks => ks.length < 2 ^ 32
  | colorSequence ks => ks.length < 2 ^ 32
  | font fam _ _ c => fam.length < 2 ^ 32 ∧ c.length < 2 ^ 32
  | _ => True

/-- The value with the fields that the format does not store set to zero: the rotation of a CFrame
with a special id, and the fields of PhysicalProperties without custom physics. -/
def canon : Val → Val
  | cframe sp r p => if sp = 0#8 then cframe sp r p else cframe sp ⟨0,0,0,0,0,0,0,0,0⟩ p
  | cframeQuat sp x y z w p => if sp = 0#8 then cframeQuat sp x y z w p else cframeQuat sp 0 0 0 0 p
  | physicalProperties cp a b c d e =>
      if cp = 0#8 then physicalProperties cp 0 0 0 0 0 else physicalProperties cp a b c d e
  | v => v

end Val

theorem Val.fromBytes_bytes (v : Val) (r : Bytes) (h : v.lenOk) :
    Val.fromBytes v.type (v.bytes ++ r) = .ok (v.canon, v.bytes.length) := by
  cases v <;> simp only [Val.type, Val.fromBytes, Val.bytes, Val.canon]
  case string s => rw [stringFrom_app s r h]; simp
  case bool b => cases b <;> rfl
  case int n => simp
  case float n => simp
  case double f => apply constFrom_ok (r := r) <;> simp
  case udim s o => apply constFrom_ok (r := r) <;> simp; omega
  case udim2 => apply constFrom_ok (r := r) <;> simp; omega
  case ray => apply constFrom_ok (r := r) <;> simp; omega
  case faces a b c d e f =>
    obtain ⟨h0, h1, h2, h3, h4, h5⟩ := readFlag_flagsByte6 a b c d e f
    apply constFrom_ok (r := r) <;> simp [h0, h1, h2, h3, h4, h5]
  case axes a b c =>
    obtain ⟨h0, h1, h2⟩ := readFlag_flagsByte3 a b c
    apply constFrom_ok (r := r) <;> simp [h0, h1, h2]
  case brickColor n => apply constFrom_ok (r := r) <;> simp
  case color3 => apply constFrom_ok (r := r) <;> simp; omega
  case vector2 x y => simp
  case vector3 v => simp
  case vector2int16 => apply constFrom_ok (r := r) <;> simp; omega
  case cframe sp rot p =>
    by_cases hs : sp = 0#8
    · subst hs
      simp only [if_true, cframeFrom, List.cons_append, List.append_assoc]
      rw [checkLengthCond_ok (by simp [condSizeCFrame]; omega)]
      simp [condSizeCFrame]
    · simp only [if_neg hs, cframeFrom, List.cons_append, List.nil_append]
      rw [checkLengthCond_ok (by simp [condSizeCFrame, hs])]
      simp [condSizeCFrame, hs, Rot.zero]
  case cframeQuat sp x y z w p =>
    by_cases hs : sp = 0#8
    · subst hs
      simp only [if_true, cframeQuatFrom, List.cons_append, List.append_assoc]
      rw [checkLengthCond_ok (by simp [condSizeCFrameQuat]; omega)]
      simp [condSizeCFrameQuat]
    · simp only [if_neg hs, cframeQuatFrom, List.cons_append, List.nil_append]
      rw [checkLengthCond_ok (by simp [condSizeCFrameQuat, hs])]
      simp [condSizeCFrameQuat, hs]
  case token n => apply constFrom_ok (r := r) <;> simp
  case reference n => apply constFrom_ok (r := r) <;> simp [decode_encode_zigzag32]
  case vector3int16 => apply constFrom_ok (r := r) <;> simp; omega
  case numberSequence ks =>
    simp only [numberSequenceFrom, List.append_assoc]
    rw [checkLengthArray_app 12 ks _ r h (flatMap_length_const nskBytes_length ks)]
    simp only [Res.ok_bind, rdMany_app rdNSK_app ks r, Res.pure_eq]
    simp [flatMap_length_const nskBytes_length]
  case colorSequence ks =>
    simp only [colorSequenceFrom, List.append_assoc]
    rw [checkLengthArray_app 20 ks _ r h (flatMap_length_const cskBytes_length ks)]
    simp only [Res.ok_bind, rdMany_app rdCSK_app ks r, Res.pure_eq]
    simp [flatMap_length_const cskBytes_length]
  case numberRange => apply constFrom_ok (r := r) <;> simp; omega
  case rect => apply constFrom_ok (r := r) <;> simp; omega
  case physicalProperties cp a b c d e =>
    by_cases hs : cp = 0#8
    · subst hs; simp [physFrom, checkLengthCond, condSizePhys]
    · simp only [if_neg hs, if_pos hs, ne_eq, physFrom, List.cons_append,
        List.append_assoc]
      rw [checkLengthCond_ok (by simp [condSizePhys, hs]; omega)]
      simp [condSizePhys, hs]
  case color3uint8 => apply constFrom_ok (r := r) <;> simp
  case int64 n => simp
  case sharedString n => apply constFrom_ok (r := r) <;> simp
  case uniqueId => apply constFrom_ok (r := r) <;> simp; omega
  case font fam w st c =>
    simp only [fontFrom, List.append_assoc, List.cons_append]
    rw [stringFrom_app fam _ h.1]
    have hd : (stringBytes fam ++ (le16 w ++ st :: (stringBytes c ++ r))).drop (4 + fam.length) =
        le16 w ++ st :: (stringBytes c ++ r) := by
      rw [← stringBytes_length fam, List.drop_left]
    simp only [Res.ok_bind, hd, readLe16_le16]
    simp [readU8, stringFrom_app c r h.2]
    rw [if_neg (by omega)]
    simp; omega

/-! ### well-behaved decoders -/

/-- `rd` succeeds on every buffer of at least `k` bytes, consumes exactly `k`, and its result does
not depend on what follows. -/
def RdGood {α : Type} (k : Nat) (rd : Rd α) : Prop :=
  ∀ b : Bytes, k ≤ b.length → ∃ a, ∀ r, rd (b ++ r) = .ok (a, b.drop k ++ r)

/-- `f` never panics; when it succeeds it consumed no more than the buffer, and bytes after the
buffer would not have changed the result. -/
def FromGood {α : Type} (f : Bytes → Res (α × Nat)) : Prop :=
  ∀ b : Bytes, (f b ≠ .panic) ∧
    ∀ a n, f b = .ok (a, n) → n ≤ b.length ∧ ∀ r, f (b ++ r) = .ok (a, n)

theorem RdGood.bind {α β : Type} {k m : Nat} {x : Rd α} {f : α → Rd β}
    (hx : RdGood k x) (hf : ∀ a, RdGood m (f a)) : RdGood (k + m) (x >>= f) := by
  intro b hb
  obtain ⟨a, ha⟩ := hx b (by omega)
  obtain ⟨c, hc⟩ := hf a (b.drop k) (by simp; omega)
  refine ⟨c, fun r => ?_⟩
  simp [ha, hc]

theorem RdGood.pure {α : Type} (a : α) : RdGood 0 (pure a) := by
  intro b _; exact ⟨a, fun r => by simp⟩

theorem RdGood.bindPure {α β : Type} {k : Nat} {x : Rd α} {f : α → β}
    (hx : RdGood k x) : RdGood k (x >>= fun a => Pure.pure (f a)) := by
  have := hx.bind (m := 0) (f := fun a => Pure.pure (f a)) (fun a => RdGood.pure (f a))
  simpa using this

theorem rdGood_le16 : RdGood 2 rdLe16 := by
  intro b hb
  match b, hb with
  | _ :: _ :: t, _ => exact ⟨_, fun r => rfl⟩
theorem rdGood_le32 : RdGood 4 rdLe32 := by
  intro b hb
  match b, hb with
  | _ :: _ :: _ :: _ :: t, _ => exact ⟨_, fun r => rfl⟩
theorem rdGood_be32 : RdGood 4 rdBe32 := by
  intro b hb
  match b, hb with
  | _ :: _ :: _ :: _ :: t, _ => exact ⟨_, fun r => rfl⟩
theorem rdGood_le64 : RdGood 8 rdLe64 := by
  intro b hb
  match b, hb with
  | _ :: _ :: _ :: _ :: _ :: _ :: _ :: _ :: t, _ => exact ⟨_, fun r => rfl⟩
theorem rdGood_be64 : RdGood 8 rdBe64 := by
  intro b hb
  match b, hb with
  | _ :: _ :: _ :: _ :: _ :: _ :: _ :: _ :: t, _ => exact ⟨_, fun r => rfl⟩
theorem rdGood_u8 : RdGood 1 rdU8 := by
  intro b hb
  match b, hb with
  | _ :: t, _ => exact ⟨_, fun r => rfl⟩

theorem RdGood.const {α : Type} {k : Nat} {rd : Rd α} (h : RdGood k rd) :
    FromGood (constFrom k rd) := by
  intro b
  by_cases hb : b.length < k
  · simp [constFrom, hb]
  · obtain ⟨a, ha⟩ := h b (by omega)
    have h0 := ha []
    simp only [List.append_nil] at h0
    refine ⟨by simp [constFrom, hb, h0], ?_⟩
    intro a' n he
    simp only [constFrom, hb, if_false, h0, Res.ok_bind, Res.pure_eq, Res.ok.injEq,
      Prod.mk.injEq] at he
    obtain ⟨rfl, rfl⟩ := he
    refine ⟨by omega, fun r => ?_⟩
    simp only [constFrom, List.length_append, ha]
    rw [if_neg (by omega)]; rfl

theorem RdGood.fromP {α : Type} {k : Nat} {rd : Rd α} (h : RdGood k rd) :
    RdGood k (fromBytesP (constFrom k rd)) := by
  intro b hb
  obtain ⟨a, ha⟩ := h b hb
  refine ⟨a, fun r => ?_⟩
  have : constFrom k rd (b ++ r) = .ok (a, k) :=
    constFrom_ok (by simp; omega) (ha r)
  simp only [fromBytesP, this]
  rw [if_pos (by simp; omega), List.drop_append_of_le_length hb]

theorem rdGood_float : RdGood 4 (fromBytesP floatFrom) := (rdGood_be32.bindPure).fromP
theorem rdGood_int : RdGood 4 (fromBytesP intFrom) := (rdGood_be32.bindPure).fromP
theorem rdGood_int64 : RdGood 8 (fromBytesP int64From) := (rdGood_be64.bindPure).fromP
theorem rdGood_vec2body : RdGood 8 (do
    let x ← fromBytesP floatFrom; let y ← fromBytesP floatFrom; pure (x, y) : Rd (F32 × F32)) :=
  rdGood_float.bind (m := 4) fun _ => rdGood_float.bindPure
theorem rdGood_vec2 : RdGood 8 (fromBytesP vec2From) := rdGood_vec2body.fromP

theorem FromGood.map {α β : Type} {f : Bytes → Res (α × Nat)} (hf : FromGood f) (g : α → β) :
    FromGood (fun b => do let p ← f b; pure (g p.1, p.2)) := by
  intro b
  obtain ⟨h1, h2⟩ := hf b
  cases hb : f b with
  | panic => exact absurd hb h1
  | err e => simp [hb]
  | ok p =>
    obtain ⟨h3, h4⟩ := h2 p.1 p.2 hb
    simp only [hb, Res.ok_bind]
    refine ⟨by simp, ?_⟩
    intro a n he
    simp only [Res.pure_eq, Res.ok.injEq, Prod.mk.injEq] at he
    obtain ⟨rfl, rfl⟩ := he
    exact ⟨h3, fun r => by simp [h4]⟩

theorem fromGood_vec3 : FromGood vec3From :=
  RdGood.const (rdGood_float.bind (m := 8) fun _ => rdGood_float.bind (m := 4) fun _ =>
    rdGood_float.bindPure)

theorem rdGood_rot : RdGood 36 rdRot :=
  rdGood_le32.bind (m := 32) fun _ => rdGood_le32.bind (m := 28) fun _ =>
  rdGood_le32.bind (m := 24) fun _ => rdGood_le32.bind (m := 20) fun _ =>
  rdGood_le32.bind (m := 16) fun _ => rdGood_le32.bind (m := 12) fun _ =>
  rdGood_le32.bind (m := 8) fun _ => rdGood_le32.bind (m := 4) fun _ => rdGood_le32.bindPure
theorem rdGood_quat : RdGood 16 rdQuat :=
  rdGood_le32.bind (m := 12) fun _ => rdGood_le32.bind (m := 8) fun _ =>
  rdGood_le32.bind (m := 4) fun _ => rdGood_le32.bindPure
theorem rdGood_nsk : RdGood 12 rdNSK :=
  rdGood_le32.bind (m := 8) fun _ => rdGood_le32.bind (m := 4) fun _ => rdGood_le32.bindPure
theorem rdGood_csk : RdGood 20 rdCSK :=
  rdGood_le32.bind (m := 16) fun _ => rdGood_le32.bind (m := 12) fun _ =>
  rdGood_le32.bind (m := 8) fun _ => rdGood_le32.bind (m := 4) fun _ => rdGood_le32.bindPure

theorem rdMany_length {α : Type} {rd : Rd α} : ∀ (n : Nat) (b : Bytes) (l : List α) (r : Bytes),
    rdMany rd n b = .ok (l, r) → l.length = n := by
  intro n
  induction n with
  | zero => intro b l r h; simp [rdMany] at h; simp [h.1.symm]
  | succ n ih =>
    intro b l r h
    simp only [rdMany, rd_bind, Res.bind_eq_ok, rd_pure, Res.ok.injEq, Prod.mk.injEq] at h
    obtain ⟨p, _, q, hq, rfl, _⟩ := h
    simp [ih _ _ _ hq]

theorem RdGood.many {α : Type} {k : Nat} {rd : Rd α} (h : RdGood k rd) (n : Nat) :
    RdGood (k * n) (rdMany rd n) := by
  induction n with
  | zero => exact RdGood.pure []
  | succ n ih =>
    have := h.bind (m := k * n) (f := fun x => do let xs ← rdMany rd n; Pure.pure (x :: xs))
      (fun _ => ih.bindPure)
    rw [Nat.mul_succ, Nat.add_comm]; exact this

theorem positionFrom_good {b : Bytes} (hb : 12 ≤ b.length) :
    ∃ p, ∀ r, positionFrom (b ++ r) = .ok p := by
  have hg : RdGood 12 (do
      let x ← fromBytesP floatFrom; let y ← fromBytesP floatFrom; let z ← fromBytesP floatFrom
      pure ⟨x, y, z⟩ : Rd Vec3) :=
    rdGood_float.bind (m := 8) fun _ => rdGood_float.bind (m := 4) fun _ => rdGood_float.bindPure
  obtain ⟨a, ha⟩ := hg b hb
  refine ⟨a, fun r => ?_⟩
  have : vec3From (b ++ r) = .ok (a, 12) := constFrom_ok (by simp; omega) (ha r)
  simp [positionFrom, this]

theorem fromGood_cframe : FromGood cframeFrom := by
  intro b
  match b with
  | [] => simp [cframeFrom, checkLengthCond]
  | c :: t =>
    by_cases hc : c = 0#8
    · subst hc
      by_cases hl : t.length + 1 < 49
      · simp [cframeFrom, checkLengthCond, condSizeCFrame, hl]
      · obtain ⟨a, ha⟩ := rdGood_rot t (by omega)
        obtain ⟨p, hp⟩ := positionFrom_good (b := t.drop 36) (by simp; omega)
        have key : ∀ r, cframeFrom (0#8 :: t ++ r) = .ok (.cframe 0#8 a p, 49) := by
          intro r
          simp only [cframeFrom, List.cons_append]
          rw [checkLengthCond_ok (by simp [condSizeCFrame]; omega)]
          simp [ha, hp, condSizeCFrame]
        have h0 := key []; simp only [List.append_nil] at h0
        rw [h0]
        refine ⟨by simp, ?_⟩
        intro a' n he
        simp only [Res.ok.injEq, Prod.mk.injEq] at he
        obtain ⟨rfl, rfl⟩ := he
        exact ⟨by simp; omega, key⟩
    · by_cases hl : t.length + 1 < 13
      · simp [cframeFrom, checkLengthCond, condSizeCFrame, hl, hc]
      · obtain ⟨p, hp⟩ := positionFrom_good (b := t) (by omega)
        have key : ∀ r, cframeFrom (c :: t ++ r) = .ok (.cframe c Rot.zero p, 13) := by
          intro r
          simp only [cframeFrom, List.cons_append]
          rw [checkLengthCond_ok (by simp [condSizeCFrame, hc]; omega)]
          simp [hp, condSizeCFrame, hc]
        have h0 := key []; simp only [List.append_nil] at h0
        rw [h0]
        refine ⟨by simp, ?_⟩
        intro a' n he
        simp only [Res.ok.injEq, Prod.mk.injEq] at he
        obtain ⟨rfl, rfl⟩ := he
        exact ⟨by simp; omega, key⟩

theorem fromGood_cframeQuat : FromGood cframeQuatFrom := by
  intro b
  match b with
  | [] => simp [cframeQuatFrom, checkLengthCond]
  | c :: t =>
    by_cases hc : c = 0#8
    · subst hc
      by_cases hl : t.length + 1 < 29
      · simp [cframeQuatFrom, checkLengthCond, condSizeCFrameQuat, hl]
      · obtain ⟨a, ha⟩ := rdGood_quat t (by omega)
        obtain ⟨p, hp⟩ := positionFrom_good (b := t.drop 16) (by simp; omega)
        have key : ∀ r, cframeQuatFrom (0#8 :: t ++ r) =
            .ok (.cframeQuat 0#8 a.1 a.2.1 a.2.2.1 a.2.2.2 p, 29) := by
          intro r
          simp only [cframeQuatFrom, List.cons_append]
          rw [checkLengthCond_ok (by simp [condSizeCFrameQuat]; omega)]
          simp [ha, hp, condSizeCFrameQuat]
        have h0 := key []; simp only [List.append_nil] at h0
        rw [h0]
        refine ⟨by simp, ?_⟩
        intro a' n he
        simp only [Res.ok.injEq, Prod.mk.injEq] at he
        obtain ⟨rfl, rfl⟩ := he
        exact ⟨by simp; omega, key⟩
    · by_cases hl : t.length + 1 < 13
      · simp [cframeQuatFrom, checkLengthCond, condSizeCFrameQuat, hl, hc]
      · obtain ⟨p, hp⟩ := positionFrom_good (b := t) (by omega)
        have key : ∀ r, cframeQuatFrom (c :: t ++ r) = .ok (.cframeQuat c 0 0 0 0 p, 13) := by
          intro r
          simp only [cframeQuatFrom, List.cons_append]
          rw [checkLengthCond_ok (by simp [condSizeCFrameQuat, hc]; omega)]
          simp [hp, condSizeCFrameQuat, hc]
        have h0 := key []; simp only [List.append_nil] at h0
        rw [h0]
        refine ⟨by simp, ?_⟩
        intro a' n he
        simp only [Res.ok.injEq, Prod.mk.injEq] at he
        obtain ⟨rfl, rfl⟩ := he
        exact ⟨by simp; omega, key⟩

theorem fromGood_phys : FromGood physFrom := by
  intro b
  match b with
  | [] => simp [physFrom, checkLengthCond]
  | c :: t =>
    by_cases hc : c = 0#8
    · subst hc
      have key : ∀ r, physFrom (0#8 :: t ++ r) = .ok (.physicalProperties 0#8 0 0 0 0 0, 1) := by
        intro r
        simp only [physFrom, List.cons_append]
        rw [checkLengthCond_ok (by simp [condSizePhys])]
        simp [condSizePhys]
      have h0 := key []; simp only [List.append_nil] at h0
      rw [h0]
      refine ⟨by simp, ?_⟩
      intro a' n he
      simp only [Res.ok.injEq, Prod.mk.injEq] at he
      obtain ⟨rfl, rfl⟩ := he
      exact ⟨by simp, key⟩
    · by_cases hl : t.length + 1 < 21
      · simp [physFrom, checkLengthCond, condSizePhys, hl, hc]
      · have hg : RdGood 20 (do
            let d ← rdLe32; let f ← rdLe32; let e ← rdLe32; let fw ← rdLe32; let ew ← rdLe32
            pure (d, f, e, fw, ew) : Rd (F32 × F32 × F32 × F32 × F32)) :=
          rdGood_le32.bind (m := 16) fun _ => rdGood_le32.bind (m := 12) fun _ =>
          rdGood_le32.bind (m := 8) fun _ => rdGood_le32.bind (m := 4) fun _ => rdGood_le32.bindPure
        obtain ⟨a, ha⟩ := hg t (by omega)
        have key : ∀ r, physFrom (c :: t ++ r) =
            .ok (.physicalProperties c a.1 a.2.1 a.2.2.1 a.2.2.2.1 a.2.2.2.2, 21) := by
          intro r
          simp only [physFrom, List.cons_append]
          rw [checkLengthCond_ok (by simp [condSizePhys, hc]; omega)]
          simp only [Res.ok_bind, if_pos (show c ≠ 0#8 from hc), ha]
          simp [condSizePhys, hc]
        have h0 := key []; simp only [List.append_nil] at h0
        rw [h0]
        refine ⟨by simp, ?_⟩
        intro a' n he
        simp only [Res.ok.injEq, Prod.mk.injEq] at he
        obtain ⟨rfl, rfl⟩ := he
        exact ⟨by simp; omega, key⟩

theorem checkLengthArray_cases (k : Nat) (b : Bytes) :
    (∃ e, checkLengthArray k b = .err e) ∨
    (∃ n, k * n ≤ (b.drop 4).length ∧ 4 ≤ b.length ∧
      ∀ r, checkLengthArray k (b ++ r) = .ok (b.drop 4 ++ r, n)) := by
  by_cases h : b.length < 4
  · left; exact ⟨_, by simp [checkLengthArray, h]; rfl⟩
  · obtain ⟨v, hv⟩ := rdGood_le32 b (by omega)
    have hv' : ∀ r, readLe32 (b ++ r) = .ok (v, b.drop 4 ++ r) := hv
    have h0 := hv' []; simp only [List.append_nil] at h0
    by_cases h2 : b.length < 4 + k * v.toNat
    · left; exact ⟨_, by simp [checkLengthArray, h, h0, h2]; rfl⟩
    · right
      refine ⟨v.toNat, by simp; omega, by omega, fun r => ?_⟩
      simp only [checkLengthArray, hv', Res.ok_bind, List.length_append]
      rw [if_neg (by omega), if_neg (by omega)]; rfl

theorem fromGood_string : FromGood stringFrom := by
  intro b
  rcases checkLengthArray_cases 1 b with ⟨e, h⟩ | ⟨n, hn, hb, h⟩
  · simp [stringFrom, h]
  · have key : ∀ r, stringFrom (b ++ r) = .ok ((b.drop 4).take n, 4 + n) := by
      intro r
      simp only [stringFrom, h, Res.ok_bind]
      rw [List.take_append_of_le_length (by omega)]
      simp; simp at hn; omega
    have h0 := key []; simp only [List.append_nil] at h0
    rw [h0]
    refine ⟨by simp, ?_⟩
    intro a' n' he
    simp only [Res.ok.injEq, Prod.mk.injEq] at he
    obtain ⟨rfl, rfl⟩ := he
    exact ⟨by simp at hn; omega, key⟩

theorem fromGood_many {α : Type} {k : Nat} {rd : Rd α} (hr : RdGood k rd) (mk : List α → Val) :
    FromGood (fun b => (do
      let (b, n) ← checkLengthArray k b
      let (ks, _) ← rdMany rd n b
      pure (mk ks, 4 + k * ks.length) : Res (Val × Nat))) := by
  intro b
  rcases checkLengthArray_cases k b with ⟨e, h⟩ | ⟨n, hn, hb, h⟩
  · simp [h]
  · obtain ⟨a, ha⟩ := hr.many n (b.drop 4) hn
    have hlen : a.length = n := rdMany_length n _ _ _ (ha [])
    have key : ∀ r, (do
        let (b, n) ← checkLengthArray k (b ++ r)
        let (ks, _) ← rdMany rd n b
        pure (mk ks, 4 + k * ks.length) : Res (Val × Nat)) = .ok (mk a, 4 + k * n) := by
      intro r
      simp [h, ha, hlen]
    have h0 := key []; simp only [List.append_nil] at h0
    simp only [h0]
    refine ⟨by simp, ?_⟩
    intro a' n' he
    simp only [Res.ok.injEq, Prod.mk.injEq] at he
    obtain ⟨rfl, rfl⟩ := he
    exact ⟨by simp at hn; omega, key⟩

theorem fromGood_font : FromGood fontFrom := by
  intro b
  obtain ⟨h1, h2⟩ := fromGood_string b
  cases hb : stringFrom b with
  | panic => exact absurd hb h1
  | err e => simp [fontFrom, hb]
  | ok p =>
    obtain ⟨s, n⟩ := p
    obtain ⟨hn, hs⟩ := h2 s n hb
    by_cases hw : (b.drop n).length < 2
    · simp only [fontFrom, hb, Res.ok_bind, if_pos hw]; simp
    · obtain ⟨w, hw2⟩ := rdGood_le16 (b.drop n) (by omega)
      have hw' : ∀ r, readLe16 (b.drop n ++ r) = .ok (w, (b.drop n).drop 2 ++ r) := hw2
      have hw0 := hw' []; simp only [List.append_nil] at hw0
      by_cases hst : ((b.drop n).drop 2).length < 1
      · simp only [fontFrom, hb, Res.ok_bind, if_neg hw, hw0, if_pos hst]; simp
      · obtain ⟨st, hst2⟩ := rdGood_u8 ((b.drop n).drop 2) (by omega)
        have hst' : ∀ r, readU8 ((b.drop n).drop 2 ++ r) =
          .ok (st, ((b.drop n).drop 2).drop 1 ++ r) := hst2
        have hst0 := hst' []; simp only [List.append_nil] at hst0
        obtain ⟨h3, h4⟩ := fromGood_string (((b.drop n).drop 2).drop 1)
        cases hc : stringFrom (((b.drop n).drop 2).drop 1) with
        | panic => exact absurd hc h3
        | err e => simp only [fontFrom, hb, Res.ok_bind, if_neg hw, hw0, if_neg hst, hst0, hc]; simp
        | ok q =>
          obtain ⟨c, m⟩ := q
          obtain ⟨hm, hcs⟩ := h4 c m hc
          have key : ∀ r, fontFrom (b ++ r) = .ok (.font s w st c, n + 2 + 1 + m) := by
            intro r
            simp only [fontFrom, hs, Res.ok_bind, List.drop_append_of_le_length hn, hw', hst', hcs]
            rw [if_neg (by simp at hw ⊢; omega), if_neg (by simp at hst ⊢; omega)]; rfl
          have h0 := key []; simp only [List.append_nil] at h0
          rw [h0]
          refine ⟨by simp, ?_⟩
          intro a' n' he
          simp only [Res.ok.injEq, Prod.mk.injEq] at he
          obtain ⟨rfl, rfl⟩ := he
          refine ⟨?_, key⟩
          simp at hw hst hm; omega

/-- Every decoder is well behaved, except that Optional has no value decoder. -/
theorem Val.fromBytes_good (t : TypeID) (ht : t ≠ .optional) : FromGood (Val.fromBytes t) := by
  cases t
  case string => exact fromGood_string.map _
  case bool => exact rdGood_u8.bindPure.const
  case int => exact rdGood_be32.bindPure.const.map _
  case float => exact rdGood_be32.bindPure.const.map _
  case double => exact rdGood_le64.bindPure.const
  case udim => exact (rdGood_float.bind (m := 4) fun _ => rdGood_int.bindPure).const
  case udim2 => exact (rdGood_float.bind (m := 12) fun _ => rdGood_float.bind (m := 8) fun _ =>
      rdGood_int.bind (m := 4) fun _ => rdGood_int.bindPure).const
  case ray => exact (rdGood_le32.bind (m := 20) fun _ => rdGood_le32.bind (m := 16) fun _ =>
      rdGood_le32.bind (m := 12) fun _ => rdGood_le32.bind (m := 8) fun _ =>
      rdGood_le32.bind (m := 4) fun _ => rdGood_le32.bindPure).const
  case faces => exact rdGood_u8.bindPure.const
  case axes => exact rdGood_u8.bindPure.const
  case brickColor => exact rdGood_be32.bindPure.const
  case color3 => exact (rdGood_float.bind (m := 8) fun _ => rdGood_float.bind (m := 4) fun _ =>
      rdGood_float.bindPure).const
  case vector2 => exact rdGood_vec2body.const.map (fun p => Val.vector2 p.1 p.2)
  case vector3 => exact fromGood_vec3.map _
  case vector2int16 => exact (rdGood_le16.bind (m := 2) fun _ => rdGood_le16.bindPure).const
  case cframe => exact fromGood_cframe
  case cframeQuat => exact fromGood_cframeQuat
  case token => exact rdGood_be32.bindPure.const
  case reference => exact rdGood_be32.bindPure.const
  case vector3int16 => exact (rdGood_le16.bind (m := 4) fun _ => rdGood_le16.bind (m := 2) fun _ =>
      rdGood_le16.bindPure).const
  case numberSequence => exact fromGood_many rdGood_nsk .numberSequence
  case colorSequence => exact fromGood_many rdGood_csk .colorSequence
  case numberRange => exact (rdGood_le32.bind (m := 4) fun _ => rdGood_le32.bindPure).const
  case rect => exact (rdGood_vec2.bind (m := 8) fun _ => rdGood_vec2.bindPure).const
  case physicalProperties => exact fromGood_phys
  case color3uint8 => exact (rdGood_u8.bind (m := 2) fun _ => rdGood_u8.bind (m := 1) fun _ =>
      rdGood_u8.bindPure).const
  case int64 => exact rdGood_be64.bindPure.const.map _
  case sharedString => exact rdGood_be32.bindPure.const
  case optional => exact absurd rfl ht
  case uniqueId => exact (rdGood_be32.bind (m := 12) fun _ => rdGood_be32.bind (m := 8) fun _ =>
      rdGood_int64.bindPure).const
  case font => exact fromGood_font

end Rbxl

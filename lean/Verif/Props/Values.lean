import Verif.Rbxl.ValuesLemmas
/-!
# C01, C02, C03, C55, C56, C59: binary values
-/
namespace Props
open Go Rbxl

/-! ## C01 -/

/-- What the format stores of a value: everything, except the rotation of a CFrame that carries a
special id, and the fields of PhysicalProperties without custom physics. Two values have the same
stored content when they agree up to those fields. -/
inductive SameStored : Val → Val → Prop
  | refl (v : Val) : SameStored v v
  | cframe {sp : Byte} (h : sp ≠ 0#8) (r r' : Rot) (p : Vec3) :
      SameStored (.cframe sp r p) (.cframe sp r' p)
  | cframeQuat {sp : Byte} (h : sp ≠ 0#8) (x y z w x' y' z' w' : F32) (p : Vec3) :
      SameStored (.cframeQuat sp x y z w p) (.cframeQuat sp x' y' z' w' p)
  | phys (a b c d e a' b' c' d' e' : F32) :
      SameStored (.physicalProperties 0#8 a b c d e) (.physicalProperties 0#8 a' b' c' d' e')

theorem sameStored_canon (v : Val) : SameStored v v.canon := by
  cases v <;> simp only [Val.canon] <;> try exact .refl _
  · split
    · exact .refl _
    · exact .cframe ‹_› _ _ _
  · split
    · exact .refl _
    · exact .cframeQuat ‹_› _ _ _ _ _ _ _ _ _
  · split
    · rename_i h; subst h; exact .phys _ _ _ _ _ _ _ _ _ _
    · exact .refl _

/-- C01: decoding what a value encodes to, followed by anything, gives the value back and consumes
exactly the bytes written. -/
theorem C01_value_roundtrip (v : Val) (rest : Bytes) (h : v.lenOk) :
    ∃ v', Val.fromBytes v.type (v.bytes ++ rest) = .ok (v', v.bytes.length) ∧ SameStored v v' :=
  ⟨_, Val.fromBytes_bytes v rest h, sameStored_canon v⟩

/-- C01: for values all of whose fields are stored the result is the very same value. -/
theorem C01_value_roundtrip_exact (v : Val) (rest : Bytes) (h : v.lenOk)
    (hc : ∀ sp r p, v = .cframe sp r p → sp = 0#8 ∨ r = Rot.zero)
    (hq : ∀ sp x y z w p, v = .cframeQuat sp x y z w p → sp = 0#8)
    (hp : ∀ cp a b c d e, v = .physicalProperties cp a b c d e → cp ≠ 0#8) :
    Val.fromBytes v.type (v.bytes ++ rest) = .ok (v, v.bytes.length) := by
  rw [Val.fromBytes_bytes v rest h]
  congr 2
  cases v <;> try rfl
  · rcases hc _ _ _ rfl with h | h
    · simp [Val.canon, h]
    · simp only [Val.canon, h]; split <;> rfl
  · simp [Val.canon, hq _ _ _ _ _ _ rfl]
  · simp [Val.canon, hp _ _ _ _ _ _ rfl]

example : (Val.font [1, 2] 400 1 [3]).lenOk := by simp [Val.lenOk]
example : Val.fromBytes .numberSequence
    ((Val.numberSequence [⟨0, 1, 2⟩, ⟨3, 4, 5⟩]).bytes ++ [7, 7]) =
    .ok (.numberSequence [⟨0, 1, 2⟩, ⟨3, 4, 5⟩], 28) := by decide

/-- Two values of one type with the same bytes have the same stored content. -/
theorem C01_bytes_injective (v w : Val) (ht : v.type = w.type) (hv : v.lenOk) (hw : w.lenOk)
    (h : v.bytes = w.bytes) : v.canon = w.canon := by
  have a := Val.fromBytes_bytes v [] hv
  have b := Val.fromBytes_bytes w [] hw
  rw [h, ht, b] at a
  simpa using a.symm

/-! ## C02 -/

/-- C02: `BytesLen` is the number of bytes written. -/
theorem C02_bytesLen (v : Val) : v.bytes.length = v.bytesLen := v.bytes_length

/-- C02: any strict prefix of an encoding is rejected with an error (no success, no panic). -/
theorem C02_truncated (v : Val) (h : v.lenOk) (k : Nat) (hk : k < v.bytes.length) :
    (Val.fromBytes v.type (v.bytes.take k)).isErr := by
  have ht : v.type ≠ .optional := by cases v <;> simp [Val.type]
  have hg := Val.fromBytes_good v.type ht (v.bytes.take k)
  cases hr : Val.fromBytes v.type (v.bytes.take k) with
  | err e => trivial
  | panic => exact absurd hr hg.1
  | ok x =>
    obtain ⟨a, n⟩ := x
    obtain ⟨h1, h2⟩ := hg.2 a n hr
    have h3 := h2 (v.bytes.drop k)
    rw [List.take_append_drop] at h3
    have h4 := Val.fromBytes_bytes v [] h
    rw [List.append_nil, h3] at h4
    simp only [Res.ok.injEq, Prod.mk.injEq] at h4
    rw [List.length_take] at h1
    omega

/-- C02: decoding any byte string whatsoever as a value of any type returns or reports an error. -/
theorem C02_never_panics (t : TypeID) (ht : t ≠ .optional) (b : Bytes) :
    Val.fromBytes t b ≠ .panic := (Val.fromBytes_good t ht b).1

/-- C02: a successful decode never claims more bytes than there are. -/
theorem C02_consumes_at_most (t : TypeID) (ht : t ≠ .optional) (b : Bytes) (v : Val) (n : Nat)
    (h : Val.fromBytes t b = .ok (v, n)) : n ≤ b.length :=
  ((Val.fromBytes_good t ht b).2 v n h).1

example : (Val.fromBytes .cframe ((Val.cframe 0 Rot.zero ⟨1, 2, 3⟩).bytes.take 48)).isErr :=
  C02_truncated (.cframe 0 Rot.zero ⟨1, 2, 3⟩) trivial 48 (by decide)

/-! ## C03 -/

/-- The mathematical zigzag code of an integer. -/
def zigzag (n : Int) : Nat := if 0 ≤ n then (2 * n).toNat else (-2 * n - 1).toNat

/-- C03: the 32-bit transform computes the zigzag code of the signed value. -/
theorem C03_zigzag32_spec (n : BitVec 32) : (encodeZigzag32 n).toNat = zigzag n.toInt := by
  have hn := n.isLt
  rw [encodeZigzag32_toNat, zigzag, BitVec.toInt_eq_toNat_cond]
  split <;> split <;> split <;> omega

theorem C03_zigzag64_spec (n : BitVec 64) : (encodeZigzag64 n).toNat = zigzag n.toInt := by
  have hn := n.isLt
  rw [encodeZigzag64_toNat, zigzag, BitVec.toInt_eq_toNat_cond]
  split <;> split <;> split <;> omega

/-- C03: the transforms are mutually inverse bijections. -/
theorem C03_inverse :
    (∀ n : BitVec 32, decodeZigzag32 (encodeZigzag32 n) = n ∧ encodeZigzag32 (decodeZigzag32 n) = n)
    ∧ (∀ n : BitVec 64, decodeZigzag64 (encodeZigzag64 n) = n ∧
        encodeZigzag64 (decodeZigzag64 n) = n)
    ∧ (∀ n : BitVec 32, decodeRobloxFloat (encodeRobloxFloat n) = n ∧
        encodeRobloxFloat (decodeRobloxFloat n) = n) :=
  ⟨fun n => ⟨decode_encode_zigzag32 n, encode_decode_zigzag32 n⟩,
   fun n => ⟨decode_encode_zigzag64 n, encode_decode_zigzag64 n⟩,
   fun n => ⟨decode_encode_float n, encode_decode_float n⟩⟩

/-- C03: the float transform moves the sign from the top bit to the bottom one. -/
theorem C03_float_spec (f : F32) :
    (encodeRobloxFloat f).toNat = 2 * (f.toNat % 2 ^ 31) + (if f.msb then 1 else 0) := by
  have := f.isLt
  rw [encodeRobloxFloat_toNat, BitVec.msb_eq_decide]
  split <;> rename_i h <;> simp at h <;> omega

example : encodeZigzag32 (-1) = 1 ∧ encodeZigzag32 1 = 2 ∧
    encodeZigzag32 0x80000000#32 = 0xFFFFFFFF#32 := by decide

/-! ## C55 -/

/-- The number a byte string denotes, least significant byte first. -/
def leValue : Bytes → Nat
  | [] => 0
  | b :: r => b.toNat + 256 * leValue r

/-- C55: the writers emit the right number of bytes, little-endian or big-endian, and the readers
read back exactly that number, leaving the following bytes. -/
theorem C55_le16 (v : BitVec 16) (r : Bytes) :
    (le16 v).length = 2 ∧ leValue (le16 v) = v.toNat ∧ readLe16 (le16 v ++ r) = .ok (v, r) := by
  refine ⟨rfl, ?_, readLe16_le16 v r⟩
  have := v.isLt
  simp only [le16, leValue, toNat_byte0, toNat_shr]; omega
theorem C55_le32 (v : BitVec 32) (r : Bytes) :
    (le32 v).length = 4 ∧ leValue (le32 v) = v.toNat ∧ readLe32 (le32 v ++ r) = .ok (v, r) := by
  refine ⟨rfl, ?_, readLe32_le32 v r⟩
  have := v.isLt
  simp only [le32, leValue, toNat_byte0, toNat_shr]; omega
theorem C55_le64 (v : BitVec 64) (r : Bytes) :
    (le64 v).length = 8 ∧ leValue (le64 v) = v.toNat ∧ readLe64 (le64 v ++ r) = .ok (v, r) := by
  refine ⟨rfl, ?_, readLe64_le64 v r⟩
  have := v.isLt
  simp only [le64, leValue, toNat_byte0, toNat_shr]; omega
theorem C55_be32 (v : BitVec 32) (r : Bytes) :
    (be32 v).length = 4 ∧ leValue (be32 v).reverse = v.toNat ∧
      readBe32 (be32 v ++ r) = .ok (v, r) := by
  refine ⟨rfl, ?_, readBe32_be32 v r⟩
  have := v.isLt
  simp only [be32, List.reverse_cons, List.reverse_nil, List.nil_append, List.cons_append,
    leValue, toNat_byte0, toNat_shr]; omega
theorem C55_be64 (v : BitVec 64) (r : Bytes) :
    (be64 v).length = 8 ∧ leValue (be64 v).reverse = v.toNat ∧
      readBe64 (be64 v ++ r) = .ok (v, r) := by
  refine ⟨rfl, ?_, readBe64_be64 v r⟩
  have := v.isLt
  simp only [be64, List.reverse_cons, List.reverse_nil, List.nil_append, List.cons_append,
    leValue, toNat_byte0, toNat_shr]; omega

/-- C55: conversely reading never invents: what was read is what the bytes denote. -/
theorem C55_readLe32_value (b : Bytes) (v : BitVec 32) (r : Bytes) (h : readLe32 b = .ok (v, r)) :
    b = le32 v ++ r ∧ v.toNat = leValue (b.take 4) := by
  match b, h with
  | b0 :: b1 :: b2 :: b3 :: r', h =>
    simp only [readLe32, Res.ok.injEq, Prod.mk.injEq] at h
    obtain ⟨rfl, rfl⟩ := h
    refine ⟨by rw [le32_mk32]; rfl, ?_⟩
    rw [mk32_toNat]; simp [leValue]; omega

/-! ## C59 (binary part) -/

/-- C59: bit `i` of the stored byte is the `i`-th flag and the unused bits are zero. -/
theorem C59_faces_bits (r t ba l bo f : Bool) :
    ∃ b : Byte, (Val.faces r t ba l bo f).bytes = [b] ∧ b.toNat < 64 ∧
      [b.getLsbD 0, b.getLsbD 1, b.getLsbD 2, b.getLsbD 3, b.getLsbD 4, b.getLsbD 5]
        = [r, t, ba, l, bo, f] := by
  cases r <;> cases t <;> cases ba <;> cases l <;> cases bo <;> cases f <;>
    exact ⟨_, rfl, by decide, by decide⟩
theorem C59_axes_bits (x y z : Bool) :
    ∃ b : Byte, (Val.axes x y z).bytes = [b] ∧ b.toNat < 8 ∧
      [b.getLsbD 0, b.getLsbD 1, b.getLsbD 2] = [x, y, z] := by
  cases x <;> cases y <;> cases z <;> exact ⟨_, rfl, by decide, by decide⟩

/-- `readFlags` tests exactly the bit. -/
theorem readFlag_eq (b : Byte) (i : Nat) (hi : i < 8) : readFlag b i = b.getLsbD i := by
  match i, hi with
  | 0, _ | 1, _ | 2, _ | 3, _ | 4, _ | 5, _ | 6, _ | 7, _ => revert b; decide

/-- C59: any byte decodes to the flags given by its bits; the unused bits are ignored. -/
theorem C59_faces_decode (b : Byte) (rest : Bytes) : Val.fromBytes .faces (b :: rest) =
    .ok (.faces (b.getLsbD 0) (b.getLsbD 1) (b.getLsbD 2) (b.getLsbD 3) (b.getLsbD 4)
      (b.getLsbD 5), 1) := by
  simp [Val.fromBytes, constFrom, readFlag_eq]
theorem C59_axes_decode (b : Byte) (rest : Bytes) : Val.fromBytes .axes (b :: rest) =
    .ok (.axes (b.getLsbD 0) (b.getLsbD 1) (b.getLsbD 2), 1) := by
  simp [Val.fromBytes, constFrom, readFlag_eq]

/-! ## C56 (binary ids; the correspondence with `rbxfile.Type` is in `Props/Types.lean`) -/

/-- C56: a byte is a valid id exactly when some type has it, and then that type is the one
selected on decoding. -/
theorem C56_ids (b : Byte) :
    (TypeID.validByte b = true ↔ ∃ t : TypeID, t.toByte = b) ∧
    (∀ t : TypeID, t.toByte = b → TypeID.ofByte b = some t) ∧
    (∀ t : TypeID, TypeID.ofByte b = some t → t.toByte = b) := by
  have hall : ∀ t : TypeID, t ∈ TypeID.all := by intro t; cases t <;> decide
  have h1 : ∀ t ∈ TypeID.all, TypeID.ofByte t.toByte = some t := by decide
  have h2 : ∀ t ∈ TypeID.all, TypeID.validByte t.toByte = true := by decide
  have h3 : ∀ b : Byte, TypeID.validByte b = true → (TypeID.ofByte b).isSome = true := by decide
  have h4 : ∀ t : TypeID, TypeID.ofByte b = some t → t.toByte = b := by
    intro t ht
    have := List.find?_some ht
    simpa using this
  refine ⟨⟨fun h => ?_, fun ⟨t, ht⟩ => ht ▸ h2 t (hall t)⟩, fun t ht => ht ▸ h1 t (hall t), h4⟩
  obtain ⟨t, ht⟩ := Option.isSome_iff_exists.1 (h3 b h)
  exact ⟨t, h4 t ht⟩

/-- C56: no two types share an id. -/
theorem C56_toByte_injective (t u : TypeID) (h : t.toByte = u.toByte) : t = u := by
  have := (C56_ids u.toByte).2.1 t h
  rw [(C56_ids u.toByte).2.1 u rfl] at this
  simpa using this.symm

theorem constFrom_all {α : Type} {k : Nat} {rd : Rd α} {P : α → Prop}
    (h : ∀ b, Res.All (fun x => P x.1) (rd b)) (b : Bytes) :
    Res.All (fun x => P x.1) (constFrom k rd b) := by
  unfold constFrom
  split
  · exact .err
  · exact .bindOf (h b) fun a ha => .ok ha

/-- C56: decoding as type `t` yields a value of type `t`. -/
theorem C56_decode_type (t : TypeID) (b : Bytes) (v : Val) (n : Nat)
    (h : Val.fromBytes t b = .ok (v, n)) : v.type = t := by
  have key : Res.All (fun x : Val × Nat => x.1.type = t) (Val.fromBytes t b) := by
    cases t <;> simp only [Val.fromBytes, cframeFrom, cframeQuatFrom, physFrom,
      numberSequenceFrom, colorSequenceFrom, fontFrom]
    all_goals first
      | exact .panic
      | exact .bind fun a => .ok rfl
      | (refine constFrom_all (P := fun v : Val => v.type = _) (fun b => ?_) b
         repeat' first | exact .ok rfl | refine .bind fun a => ?_)
      | (repeat' first | split | exact .err | exact .ok rfl | refine .bind fun a => ?_)
  exact key _ h

end Props

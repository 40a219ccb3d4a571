import Verif.Json.Model
import Verif.Spec.Json
/-!
# Values converted to JSON interfaces and back
-/
namespace Json
open Go Rbxfile Spec

/-- `f` after conversion to float64 and back. -/
def quiet (f : F32) : F32 := f64to32 (f32to64 f)

theorem quiet_same (f : F32) : SameFloat f (quiet f) := by
  unfold quiet
  rw [narrow_widen]
  split
  · rename_i h
    refine .inr ⟨by rw [inf32] at h; exact h, ?_⟩
    rw [inf32] at h
    unfold IsNaN
    unfold mag32 at h
    have hor : f.toNat ≤ (f ||| 0x400000#32).toNat := by
      rw [BitVec.toNat_or]; exact Nat.left_le_or
    have hl := (f ||| 0x400000#32).isLt
    have hmsb : (f ||| 0x400000#32).toNat / 2 ^ 31 = f.toNat / 2 ^ 31 := by
      rw [BitVec.toNat_or, Nat.or_div_two_pow]
      rw [show (0x400000#32).toNat / 2 ^ 31 = 0 by decide, Nat.or_zero]
    omega
  · exact .inl rfl

theorem uint_exact {w : Nat} (hw : w ≤ 53) (v : BitVec w) : ∃ m k, v.toNat = m * 2 ^ k ∧ m < 2 ^ 53 :=
  small_digits (Nat.le_trans (Nat.le_of_lt v.isLt) (Nat.pow_le_pow_right (by omega) hw))

theorem int_exact {w : Nat} (hw : w ≤ 53) (v : BitVec w) : ∃ m k, v.toInt.natAbs = m * 2 ^ k ∧ m < 2 ^ 53 := by
  apply small_digits
  have h1 := BitVec.le_toInt v
  have h2 := BitVec.toInt_lt (x := v)
  have h3 : (2 : Nat) ^ (w - 1) ≤ 2 ^ 53 := Nat.pow_le_pow_right (by omega) (by omega)
  have h4 : ((2 : Int) ^ (w - 1)) = ((2 ^ (w - 1) : Nat) : Int) := by simp
  omega

theorem int_back (O : Overflow) {w : Nat} (h0 : 0 < w) (hw : w ≤ 53) (v : BitVec w) :
    f64ToInt O w (intToF64 v.toInt) = v := f64ToInt_back O h0 v (by omega) (int_exact hw v)

theorem uint_back (O : Overflow) {w : Nat} (hw : w ≤ 53) (v : BitVec w) :
    f64ToUint O w (intToF64 v.toNat) = v := f64ToUint_back O v (by omega) (uint_exact hw v)

theorem openBase64_back (s : Bytes) : b64Decode (openBase64 s) = some (s.take (s.length / 3 * 3)) :=
  b64Decode_encode _

theorem openBase64_whole {s : Bytes} (h : s.length % 3 = 0) : b64Decode (openBase64 s) = some s := by
  rw [openBase64_back, List.take_of_length_le (by omega)]

theorem ty_back (it : Iter) (t : Ty) (h : t ≠ .invalid)
    (hf : typeFromString it (typeString t.code) = t.code) : tyOf (typeFromString it (typeString t.code)) = t := by
  rw [hf]; cases t <;> rfl

section
variable (O : Overflow)

/-- The key is not there yet, or it is: lookups in the literal objects the encoder makes. -/
theorem get_here {k : Bytes} {v : JVal} {m : List (Bytes × JVal)} : Map.get? ((k, v) :: m) k = some v := by
  simp [Map.get?]
theorem get_next {k k' : Bytes} {v : JVal} {m : List (Bytes × JVal)} (h : k ≠ k') :
    Map.get? ((k, v) :: m) k' = Map.get? m k' := by simp [Map.get?, h]

theorem toUDim_back (u : UDim) : toUDim O (ofUDim u) = .ok ⟨quiet u.scale, u.offset⟩ := by
  have h : num32 [(str "scale", float u.scale), (str "offset", int u.offset)] "scale" = .ok (quiet u.scale) := rfl
  have h2 : num [(str "scale", float u.scale), (str "offset", int u.offset)] "offset" =
    .ok (intToF64 u.offset.toInt) := rfl
  simp only [toUDim, ofUDim, h, h2, Res.ok_bind, Res.pure_eq, int_back O (by decide : 0 < 32) (by decide : 32 ≤ 53)]

theorem toVector3_back (v : Vector3) : toVector3 (ofVector3 v) = .ok ⟨quiet v.x, quiet v.y, quiet v.z⟩ := rfl
theorem toVector2_back (v : Vector2) : toVector2 (ofVector2 v) = .ok ⟨quiet v.x, quiet v.y⟩ := rfl
theorem toColor3_back (c : Color3) : toColor3 (ofColor3 c) = .ok ⟨quiet c.r, quiet c.g, quiet c.b⟩ := rfl

theorem numberKeypoints_back : ∀ ks : List NumberKeypoint,
    ∃ ks', toNumberKeypoints (ks.map ofNumberKeypoint) = .ok ks' ∧ Each SameNumberKeypoint ks ks'
  | [] => ⟨[], rfl, .nil⟩
  | k :: ks => by
    obtain ⟨ks', h, he⟩ := numberKeypoints_back ks
    refine ⟨⟨quiet k.time, quiet k.value, quiet k.envelope⟩ :: ks', ?_,
      .cons ⟨quiet_same _, quiet_same _, quiet_same _⟩ he⟩
    have h1 : toNumberKeypoints ((k :: ks).map ofNumberKeypoint) = (do
      let ks ← toNumberKeypoints (ks.map ofNumberKeypoint)
      pure ((⟨quiet k.time, quiet k.value, quiet k.envelope⟩ : NumberKeypoint) :: ks)) := rfl
    rw [h1, h]; rfl

theorem colorKeypoints_back : ∀ ks : List ColorKeypoint,
    ∃ ks', toColorKeypoints (ks.map ofColorKeypoint) = .ok ks' ∧ Each SameColorKeypoint ks ks'
  | [] => ⟨[], rfl, .nil⟩
  | k :: ks => by
    obtain ⟨ks', h, he⟩ := colorKeypoints_back ks
    refine ⟨⟨quiet k.time, ⟨quiet k.value.r, quiet k.value.g, quiet k.value.b⟩, quiet k.envelope⟩ :: ks', ?_,
      .cons ⟨quiet_same _, ⟨quiet_same _, quiet_same _, quiet_same _⟩, quiet_same _⟩ he⟩
    have h1 : toColorKeypoints ((k :: ks).map ofColorKeypoint) = (do
      let ks ← toColorKeypoints (ks.map ofColorKeypoint)
      pure ((⟨quiet k.time, ⟨quiet k.value.r, quiet k.value.g, quiet k.value.b⟩, quiet k.envelope⟩ : ColorKeypoint)
        :: ks)) := rfl
    rw [h1, h]; rfl

variable (it : Iter) (gen : Nat → Bytes) (fuel : Nat)

/-- A value that is not a reference: converting it does not touch the references, and converting it back yields the same
value. -/
theorem value_back {σ : Type} (φ : Nat → Option σ) {v : Value Nat} (hs : JsonSupported v) (hr : v.type ≠ .reference)
    (st : RefState Nat) :
    ∃ j w, valueTo gen fuel v st = .ok (j, st) ∧ valueFrom (ρ := σ) O it v.type j = .ok (some w) ∧ JsonKept φ v w := by
  cases v with
  | string s => exact ⟨_, _, rfl, rfl, rfl⟩
  | binaryString s =>
    refine ⟨_, .binaryString s, rfl, ?_, rfl⟩
    show Res.ok (some (Value.binaryString ((b64Decode (openBase64 s)).getD _))) = _
    rw [openBase64_whole hs]; rfl
  | protectedString s => exact ⟨_, _, rfl, rfl, rfl⟩
  | content s =>
    by_cases h : s = []
    · subst h; exact ⟨.null, _, rfl, rfl, rfl⟩
    · refine ⟨.str s, _, ?_, rfl, rfl⟩
      simp [valueTo, h]
  | bool b => exact ⟨_, _, rfl, rfl, rfl⟩
  | int n =>
    refine ⟨_, .int n, rfl, ?_, rfl⟩
    show Res.ok (some (Value.int (f64ToInt O 32 (intToF64 n.toInt)))) = _
    rw [int_back O (by decide) (by decide)]
  | float f => exact ⟨_, _, rfl, rfl, _, rfl, quiet_same f⟩
  | double f => exact ⟨_, _, rfl, rfl, rfl⟩
  | udim u =>
    refine ⟨ofUDim u, .udim ⟨quiet u.scale, u.offset⟩, rfl, ?_, _, rfl, quiet_same _, rfl⟩
    show (toUDim O (ofUDim u) >>= fun u => pure (some (Value.udim u))) = _
    rw [toUDim_back]; rfl
  | udim2 x y =>
    refine ⟨_, .udim2 ⟨quiet x.scale, x.offset⟩ ⟨quiet y.scale, y.offset⟩, rfl, ?_, _, _, rfl, ⟨quiet_same _, rfl⟩,
      quiet_same _, rfl⟩
    show (toUDim O (ofUDim x) >>= fun x => toUDim O (ofUDim y) >>= fun y => pure (some (Value.udim2 x y))) = _
    rw [toUDim_back, toUDim_back]; rfl
  | ray o d =>
    exact ⟨_, .ray ⟨quiet o.x, quiet o.y, quiet o.z⟩ ⟨quiet d.x, quiet d.y, quiet d.z⟩, rfl, rfl, _, _, rfl,
      ⟨quiet_same _, quiet_same _, quiet_same _⟩, quiet_same _, quiet_same _, quiet_same _⟩
  | faces r t b l bo f => exact ⟨_, _, rfl, rfl, rfl⟩
  | axes x y z => exact ⟨_, _, rfl, rfl, rfl⟩
  | brickColor n =>
    refine ⟨_, .brickColor n, rfl, ?_, rfl⟩
    show Res.ok (some (Value.brickColor (f64ToUint O 32 (intToF64 n.toNat)))) = _
    rw [uint_back O (by decide)]
  | color3 c =>
    exact ⟨_, .color3 ⟨quiet c.r, quiet c.g, quiet c.b⟩, rfl, rfl, _, rfl, quiet_same _, quiet_same _, quiet_same _⟩
  | vector2 v => exact ⟨_, .vector2 ⟨quiet v.x, quiet v.y⟩, rfl, rfl, _, rfl, quiet_same _, quiet_same _⟩
  | vector3 v =>
    exact ⟨_, .vector3 ⟨quiet v.x, quiet v.y, quiet v.z⟩, rfl, rfl, _, rfl, quiet_same _, quiet_same _, quiet_same _⟩
  | cframe p r =>
    exact ⟨_, .cframe ⟨quiet p.x, quiet p.y, quiet p.z⟩ ⟨quiet r.m0, quiet r.m1, quiet r.m2, quiet r.m3, quiet r.m4,
      quiet r.m5, quiet r.m6, quiet r.m7, quiet r.m8⟩, rfl, rfl, _, _, rfl,
      ⟨quiet_same _, quiet_same _, quiet_same _⟩, quiet_same _, quiet_same _, quiet_same _, quiet_same _, quiet_same _,
      quiet_same _, quiet_same _, quiet_same _, quiet_same _⟩
  | token n =>
    refine ⟨_, .token n, rfl, ?_, rfl⟩
    show Res.ok (some (Value.token (f64ToUint O 32 (intToF64 n.toNat)))) = _
    rw [uint_back O (by decide)]
  | reference q => exact absurd rfl hr
  | vector3int16 x y z =>
    refine ⟨_, .vector3int16 x y z, rfl, ?_, rfl⟩
    show Res.ok (some (Value.vector3int16 (f64ToInt O 16 (intToF64 x.toInt)) (f64ToInt O 16 (intToF64 y.toInt))
      (f64ToInt O 16 (intToF64 z.toInt)))) = _
    rw [int_back O (by decide) (by decide), int_back O (by decide) (by decide), int_back O (by decide) (by decide)]
  | vector2int16 x y =>
    refine ⟨_, .vector2int16 x y, rfl, ?_, rfl⟩
    show Res.ok (some (Value.vector2int16 (f64ToInt O 16 (intToF64 x.toInt)) (f64ToInt O 16 (intToF64 y.toInt)))) = _
    rw [int_back O (by decide) (by decide), int_back O (by decide) (by decide)]
  | numberSequence ks =>
    obtain ⟨ks', h, he⟩ := numberKeypoints_back ks
    refine ⟨_, .numberSequence ks', rfl, ?_, _, rfl, he⟩
    show (toNumberKeypoints (ks.map ofNumberKeypoint) >>= fun ks => pure (some (Value.numberSequence ks))) = _
    rw [h]; rfl
  | colorSequence ks =>
    obtain ⟨ks', h, he⟩ := colorKeypoints_back ks
    refine ⟨_, .colorSequence ks', rfl, ?_, _, rfl, he⟩
    show (toColorKeypoints (ks.map ofColorKeypoint) >>= fun ks => pure (some (Value.colorSequence ks))) = _
    rw [h]; rfl
  | numberRange a b => exact ⟨_, .numberRange (quiet a) (quiet b), rfl, rfl, _, _, rfl, quiet_same _, quiet_same _⟩
  | rect a b =>
    exact ⟨_, .rect ⟨quiet a.x, quiet a.y⟩ ⟨quiet b.x, quiet b.y⟩, rfl, rfl, _, _, rfl, ⟨quiet_same _, quiet_same _⟩,
      quiet_same _, quiet_same _⟩
  | physicalProperties c d f e fw ew =>
    exact ⟨_, .physicalProperties c (quiet d) (quiet f) (quiet e) (quiet fw) (quiet ew), rfl, rfl, _, _, _, _, _, rfl,
      quiet_same _, quiet_same _, quiet_same _, quiet_same _, quiet_same _⟩
  | color3uint8 r g b =>
    refine ⟨_, .color3uint8 r g b, rfl, ?_, rfl⟩
    show Res.ok (some (Value.color3uint8 (f64ToUint O 8 (intToF64 r.toNat)) (f64ToUint O 8 (intToF64 g.toNat))
      (f64ToUint O 8 (intToF64 b.toNat)))) = _
    rw [uint_back O (by decide), uint_back O (by decide), uint_back O (by decide)]
  | int64 n =>
    refine ⟨_, .int64 n, rfl, ?_, rfl⟩
    show Res.ok (some (Value.int64 (f64ToInt O 64 (intToF64 n.toInt)))) = _
    rw [f64ToInt_back O (by decide) n (by decide) hs]
  | sharedString s =>
    refine ⟨_, .sharedString s, rfl, ?_, rfl⟩
    show Res.ok (some (Value.sharedString ((b64Decode (openBase64 s)).getD _))) = _
    rw [openBase64_whole hs]; rfl
  | optional t o => exact hs.elim
  | uniqueId r t i => exact hs.elim
  | font f w s c => exact hs.elim
end

end Json

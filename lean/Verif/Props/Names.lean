import Verif.Rbxfile.NamesLemmas
/-!
# C33-C36: references, type names, unique ids, font names
-/
namespace Props
open Go Rbxfile Spec

/-! ## C34 -/

/-- A Go value of type `Type` is valid if it is one of the named constants other than
`TypeInvalid`. -/
def ValidType (t : Byte) : Prop := ∃ ty : Ty, ty ≠ .invalid ∧ ty.code = t

theorem validType_iff (t : Byte) : ValidType t ↔ 1 ≤ t.toNat ∧ t.toNat ≤ 33 := by
  constructor
  · rintro ⟨ty, h, rfl⟩; cases ty <;> first | exact absurd rfl h | decide
  · intro h
    have : ∀ k : Fin 256, 1 ≤ k.val ∧ k.val ≤ 33 →
        ∃ ty ∈ [Ty.string, .binaryString, .protectedString, .content, .bool, .int, .float, .double,
          .udim, .udim2, .ray, .faces, .axes, .brickColor, .color3, .vector2, .vector3, .cframe, .token,
          .reference, .vector3int16, .vector2int16, .numberSequence, .colorSequence, .numberRange,
          .rect, .physicalProperties, .color3uint8, .int64, .sharedString, .optional, .uniqueId,
          .font], ty ≠ .invalid ∧ ty.code = BitVec.ofFin k := by decide +kernel
    obtain ⟨ty, _, h1, h2⟩ := this t.toFin h
    exact ⟨ty, h1, h2⟩

theorem typeStrings_inj : ∀ e ∈ typeStrings, ∀ e' ∈ typeStrings, e.2 = e'.2 → e = e' := by
  decide +kernel

theorem typeStrings_get (t : Byte) (h : ValidType t) : (t, typeString t) ∈ typeStrings := by
  have : ∀ k : Fin 256, 1 ≤ k.val ∧ k.val ≤ 33 →
      (BitVec.ofFin k, typeString (BitVec.ofFin k)) ∈ typeStrings := by decide +kernel
  exact this t.toFin ((validType_iff t).1 h)

theorem typeStrings_valid (e : Byte × Bytes) (h : e ∈ typeStrings) :
    ValidType e.1 ∧ e.2 = typeString e.1 := by
  have : ∀ e ∈ typeStrings, (1 ≤ e.1.toNat ∧ e.1.toNat ≤ 33) ∧ e.2 = typeString e.1 := by
    decide +kernel
  exact ⟨(validType_iff _).2 (this e h).1, (this e h).2⟩

/-- C34: the name of a valid type is read back to the type, whatever the order in which Go iterates
over the table. -/
theorem C34_name_round_trip (it : Iter) (t : Byte) (h : ValidType t) :
    typeFromString it (typeString t) = t := by
  unfold typeFromString
  cases hf : (it.run [] typeStrings).find? fun e => e.2 == typeString t with
  | none =>
    have := List.find?_eq_none.1 hf (t, typeString t)
      ((it.perm _ _).mem_iff.2 (typeStrings_get t h))
    simp at this
  | some e =>
    have h1 : e.2 = typeString t := by simpa using List.find?_some hf
    have h2 := (it.perm _ _).mem_iff.1 (List.mem_of_find?_eq_some hf)
    rw [typeStrings_inj e h2 _ (typeStrings_get t h) h1]

/-- C34: any string that is not the name of a valid type gives TypeInvalid. -/
theorem C34_other_strings_invalid (it : Iter) (s : Bytes)
    (h : ∀ t, ValidType t → s ≠ typeString t) : typeFromString it s = Ty.invalid.code := by
  unfold typeFromString
  cases hf : (it.run [] typeStrings).find? fun e => e.2 == s with
  | none => rfl
  | some e =>
    have h1 : e.2 = s := by simpa using List.find?_some hf
    have h2 := (it.perm _ _).mem_iff.1 (List.mem_of_find?_eq_some hf)
    obtain ⟨h3, h4⟩ := typeStrings_valid e h2
    exact absurd (h1.symm.trans h4) (h _ h3)

/-- C34: names of valid types are distinct, and an invalid type is called "Invalid", which is not the
name of a valid one. -/
theorem C34_names (t u : Byte) (ht : ValidType t) :
    (ValidType u → typeString t = typeString u → t = u) ∧
    (¬ ValidType u → typeString u = str "Invalid" ∧ typeString t ≠ str "Invalid") := by
  constructor
  · intro hu h
    exact congrArg Prod.fst (typeStrings_inj _ (typeStrings_get t ht) _ (typeStrings_get u hu) h)
  · intro hu
    have : ∀ k : Fin 256, (¬ (1 ≤ k.val ∧ k.val ≤ 33) → typeString (BitVec.ofFin k) = str "Invalid") ∧
        ((1 ≤ k.val ∧ k.val ≤ 33) → typeString (BitVec.ofFin k) ≠ str "Invalid") := by decide +kernel
    exact ⟨(this u.toFin).1 (fun h => hu ((validType_iff u).2 h)),
      (this t.toFin).2 ((validType_iff t).1 ht)⟩

/-- C34: `NewValue` returns a value of the type asked for, and nil exactly when the type is not
valid. -/
theorem C34_new_value {ρ : Type} (t : Byte) :
    (ValidType t → ∃ v : Value ρ, newValue t = some v ∧ v.type.code = t) ∧
    (¬ ValidType t → newValue (ρ := ρ) t = none) := by
  constructor
  · rintro ⟨ty, h, rfl⟩
    cases ty <;> first
      | exact absurd rfl h
      | exact ⟨_, rfl, rfl⟩
  · intro h
    unfold newValue
    rw [Map.get?_eq_none]
    show t ∉ (valueGenerators (ρ := ρ)).map Prod.fst
    rw [show (valueGenerators (ρ := ρ)).map Prod.fst = typeStrings.map Prod.fst from rfl]
    intro hm
    obtain ⟨e, he, rfl⟩ := List.mem_map.1 hm
    exact h (typeStrings_valid e he).1

example : ValidType 20 ∧ ¬ ValidType 34 ∧ typeString 20 = str "Reference" := by
  rw [validType_iff, validType_iff]; decide +kernel

/-! ## C35 -/

/-- C35: the text of a unique id has 32 characters and, read as a hexadecimal number with lower-case
digits, is the concatenation of the three fields. -/
theorem C35_text_is_hex (random : BitVec 64) (time index : BitVec 32) :
    (uniqueIdString random time index).length = 32 ∧
    parseHex "0123456789abcdef" (uniqueIdString random time index) =
      some (random.toNat * 2 ^ 64 + time.toNat * 2 ^ 32 + index.toNat) := by
  have e : uniqueIdString random time index =
      hexDigits hexLower (be64 random ++ be32 time ++ be32 index) := by
    unfold uniqueIdString
    rw [hexLoop_eq _ _ _ (by simp)]
    rw [List.take_append_of_le_length (by simp), List.take_of_length_le (by simp),
      List.drop_eq_nil_of_le (by simp), List.append_nil]
  rw [e, hexDigits_length, parseHex_digits _ _ digits_lower, bigEndian_append, bigEndian_append,
    be64_bigEndian, be32_bigEndian, be32_bigEndian]
  refine ⟨by simp, ?_⟩
  simp only [be32_length, Option.some.injEq]
  omega

/-- C35: distinct unique ids have distinct texts. -/
theorem C35_text_injective (r r' : BitVec 64) (t t' i i' : BitVec 32)
    (h : uniqueIdString r t i = uniqueIdString r' t' i') : r = r' ∧ t = t' ∧ i = i' := by
  have h1 := (C35_text_is_hex r t i).2
  rw [h, (C35_text_is_hex r' t' i').2, Option.some.injEq] at h1
  have := i.isLt; have := i'.isLt; have := t.isLt; have := t'.isLt
  refine ⟨BitVec.eq_of_toNat_eq ?_, BitVec.eq_of_toNat_eq ?_, BitVec.eq_of_toNat_eq ?_⟩ <;> omega

example : uniqueIdString 0x0123456789abcdef 0x00ff00ff 7 = str "0123456789abcdef00ff00ff00000007" := by
  decide +kernel

/-! ## C33 -/

/-- A version 4, variant 1 UUID: 16 bytes, with the four high bits of byte 6 being 0100 and the two
high bits of byte 8 being 10. -/
def IsUUIDv4 (u : Bytes) : Prop :=
  u.length = 16 ∧ (∃ b, u[6]? = some b ∧ b.toNat / 16 = 4) ∧ (∃ b, u[8]? = some b ∧ b.toNat / 64 = 2)

/-- The bits of `u` other than the version and the variant are those of `r`. -/
def SameRandomBits (u r : Bytes) : Prop :=
  ∀ i x, r[i]? = some x → ∃ y, u[i]? = some y ∧
    (i ≠ 6 → i ≠ 8 → y = x) ∧ (i = 6 → y.toNat % 16 = x.toNat % 16) ∧
    (i = 8 → y.toNat % 64 = x.toNat % 64)

theorem stamp_version : ∀ k : Fin 256, (((BitVec.ofFin k : Byte) &&& 0x0F#8) ||| 0x40#8).toNat / 16 = 4 ∧
    (((BitVec.ofFin k : Byte) &&& 0x0F#8) ||| 0x40#8).toNat % 16 = k.val % 16 := by decide +kernel
theorem stamp_variant : ∀ k : Fin 256, (((BitVec.ofFin k : Byte) &&& 0x3F#8) ||| 0x80#8).toNat / 64 = 2 ∧
    (((BitVec.ofFin k : Byte) &&& 0x3F#8) ||| 0x80#8).toNat % 64 = k.val % 64 := by decide +kernel

/-- C33: a generated reference is "RBX" followed by 32 upper-case hexadecimal digits, which denote a
version 4 UUID made of the random bits. -/
theorem C33_format (rand : Bytes) (h : rand.length = 16) :
    ∃ u digits, IsUUIDv4 u ∧ SameRandomBits u rand ∧
      generateReference rand = str "RBX" ++ digits ∧ digits.length = 32 ∧
      parseHex "0123456789ABCDEF" digits = some (bigEndian u) := by
  match rand, h with
  | [b0, b1, b2, b3, b4, b5, b6, b7, b8, b9, b10, b11, b12, b13, b14, b15], _ =>
    refine ⟨[b0, b1, b2, b3, b4, b5, (b6 &&& 0x0F#8) ||| 0x40#8, b7, (b8 &&& 0x3F#8) ||| 0x80#8, b9,
      b10, b11, b12, b13, b14, b15], hexDigits hexUpper [b0, b1, b2, b3, b4, b5,
      (b6 &&& 0x0F#8) ||| 0x40#8, b7, (b8 &&& 0x3F#8) ||| 0x80#8, b9,
      b10, b11, b12, b13, b14, b15], ⟨rfl, ⟨_, rfl, (stamp_version b6.toFin).1⟩,
      ⟨_, rfl, (stamp_variant b8.toFin).1⟩⟩, ?_, ?_, ?_, ?_⟩
    · intro i x hx
      rcases i with _ | _ | _ | _ | _ | _ | _ | _ | _ | _ | _ | _ | _ | _ | _ | _ | i <;>
        simp only [List.getElem?_cons_zero, List.getElem?_cons_succ, Option.some.injEq,
          List.getElem?_nil, reduceCtorEq] at hx <;> subst hx <;>
        refine ⟨_, rfl, ?_, ?_, ?_⟩ <;> intro hi <;> first
          | (intro hj; first | rfl | exact absurd rfl hi | exact absurd rfl hj)
          | (exact absurd hi (by decide))
          | exact (stamp_version _).2
          | exact (stamp_variant _).2
    · unfold generateReference generateUUID
      rw [hexLoop_eq _ _ _ (by simp)]
      rfl
    · rw [hexDigits_length]; rfl
    · exact parseHex_digits _ _ digits_upper _

/-- C33: equal references come from equal random bits: distinct UUIDs give distinct references. -/
theorem C33_injective (r r' u u' : Bytes) (h : generateReference r = generateReference r')
    (hr : r.length = 16) (hr' : r'.length = 16) (hu : IsUUIDv4 u) (hu' : IsUUIDv4 u')
    (hs : SameRandomBits u r) (hs' : SameRandomBits u' r') : u = u' := by
  -- a UUID is determined by its random bits
  have uniq : ∀ a b c : Bytes, c.length = 16 → IsUUIDv4 a → IsUUIDv4 b → SameRandomBits a c →
      SameRandomBits b c → a = b := by
    intro a b c hc ha hb hac hbc
    apply List.ext_getElem?
    intro i
    by_cases hi : i < 16
    · obtain ⟨x, hx⟩ : ∃ x, c[i]? = some x := ⟨c[i], by simp [hc, hi]⟩
      obtain ⟨y, hy, y1, y2, y3⟩ := hac i x hx
      obtain ⟨z, hz, z1, z2, z3⟩ := hbc i x hx
      rw [hy, hz]
      congr 1
      by_cases h6 : i = 6
      · subst h6
        obtain ⟨p, hp, p1⟩ := ha.2.1
        obtain ⟨q, hq, q1⟩ := hb.2.1
        rw [hy] at hp; rw [hz] at hq
        cases hp; cases hq
        have := y2 rfl; have := z2 rfl
        exact BitVec.eq_of_toNat_eq (by omega)
      · by_cases h8 : i = 8
        · subst h8
          obtain ⟨p, hp, p1⟩ := ha.2.2
          obtain ⟨q, hq, q1⟩ := hb.2.2
          rw [hy] at hp; rw [hz] at hq
          cases hp; cases hq
          have := y3 rfl; have := z3 rfl
          exact BitVec.eq_of_toNat_eq (by omega)
        · rw [y1 h6 h8, z1 h6 h8]
    · rw [List.getElem?_eq_none (by have := ha.1; omega), List.getElem?_eq_none (by have := hb.1; omega)]
  obtain ⟨v, d, hv, hvs, hg, hd, hp⟩ := C33_format r hr
  obtain ⟨v', d', hv', hvs', hg', hd', hp'⟩ := C33_format r' hr'
  rw [uniq u v r hr hu hv hs hvs, uniq u' v' r' hr' hu' hv' hs' hvs']
  rw [hg, hg'] at h
  have : d = d' := List.append_cancel_left h
  subst this
  rw [hp, Option.some.injEq] at hp'
  exact bigEndian_inj (by rw [hv.1, hv'.1]) hp'

example : generateReference ((List.range 16).map (BitVec.ofNat 8 <| 255 - ·)) =
    str "RBXFFFEFDFCFBFA49F8B7F6F5F4F3F2F1F0" := by decide +kernel

/-! ## C36 -/

/-- C36: the name of a font style is read back exactly for the valid styles; no other string is
accepted. -/
theorem C36_font_style (s : Bytes) (f : Byte) :
    (fontStyleFromString s = (f, true) ↔ (f = 0#8 ∨ f = 1#8) ∧ s = fontStyleString f) ∧
    ((fontStyleFromString s).2 = false → (fontStyleFromString s).1 = 0#8) := by
  unfold fontStyleFromString
  constructor
  · constructor
    · intro h
      split at h
      · subst_vars; cases h; exact ⟨.inl rfl, rfl⟩
      · split at h
        · subst_vars; cases h; exact ⟨.inr rfl, rfl⟩
        · simp at h
    · rintro ⟨rfl | rfl, rfl⟩ <;> decide +kernel
  · intro h
    split at h <;> first | (simp at h; done) | skip
    split at h <;> first | (simp at h; done) | skip
    simp_all

/-- The valid font weights. -/
def fontWeights : List (BitVec 16) := [100, 200, 300, 400, 500, 600, 700, 800, 900]

/-- C36: the name of a font weight is read back exactly for the nine valid weights; no other string
is accepted. -/
theorem C36_font_weight (s : Bytes) (f : BitVec 16) :
    fontWeightFromString s = (f, true) ↔ f ∈ fontWeights ∧ s = fontWeightString f := by
  constructor
  · intro h
    unfold fontWeightFromString at h
    repeat' split at h
    all_goals first
      | (simp at h; done)
      | (subst_vars; cases h; exact ⟨by decide, by decide +kernel⟩)
  · rintro ⟨hf, rfl⟩
    simp only [fontWeights, List.mem_cons, List.not_mem_nil, or_false] at hf
    rcases hf with rfl | rfl | rfl | rfl | rfl | rfl | rfl | rfl | rfl <;> decide +kernel

/-- C36: invalid styles and weights have the text "<invalid>", which is not accepted. -/
theorem C36_invalid :
    (∀ f : Byte, f ≠ 0#8 → f ≠ 1#8 → fontStyleString f = str "<invalid>") ∧
    (∀ f : BitVec 16, f ∉ fontWeights → fontWeightString f = str "<invalid>") ∧
    (fontStyleFromString (str "<invalid>")).2 = false ∧
    (fontWeightFromString (str "<invalid>")).2 = false := by
  refine ⟨fun f h0 h1 => by simp [fontStyleString, h0, h1], fun f hf => ?_, by decide +kernel,
    by decide +kernel⟩
  simp only [fontWeights, List.mem_cons, List.not_mem_nil, or_false, not_or] at hf
  obtain ⟨h1, h2, h3, h4, h5, h6, h7, h8, h9⟩ := hf
  unfold fontWeightString
  exact (if_neg h1).trans ((if_neg h2).trans ((if_neg h3).trans ((if_neg h4).trans ((if_neg h5).trans
    ((if_neg h6).trans ((if_neg h7).trans ((if_neg h8).trans (if_neg h9))))))))

end Props

import Verif.Rbxlx.ValueBack
/-!
# Properties read back from their tags
-/
namespace Rbxlx
open Go Rbxfile

variable {F : FloatText} {ρ σ : Type}

theorem hasCDataEnd_iff (s : Bytes) : hasCDataEnd s = true ↔ [93#8, 93#8, 62#8] <:+: s := by
  induction s with
  | nil => simp [hasCDataEnd]
  | cons b s ih =>
    have e : str "]]>" = [93#8, 93#8, 62#8] := by decide
    rw [List.infix_cons_iff, ← ih, hasCDataEnd, e, Bool.or_eq_true, List.isPrefixOf_iff_prefix]

theorem no_cdataEnd {s : Bytes} (h : 62#8 ∉ s) : hasCDataEnd s = false := by
  rw [Bool.eq_false_iff, ne_eq, hasCDataEnd_iff]
  intro hi
  exact h (hi.subset (by simp))

theorem split_bytes (s : Bytes) : ∀ c ∈ b64Split s, c = 10#8 ∨ (43 ≤ c.toNat ∧ c.toNat ≤ 122 ∧ c.toNat ≠ 62) := by
  intro c hc
  rw [b64Split_eq] at hc
  rcases splitAt_bytes _ _ _ c hc with h | h
  · exact .inl h
  · have := b64Encode_bytes s c h
    refine .inr ⟨this.1, this.2.1, ?_⟩
    omega

theorem split_no_gt (s : Bytes) : 62#8 ∉ b64Split s := by
  intro h
  rcases split_bytes s _ h with h | h
  · exact absurd h (by decide)
  · exact h.2.2 (by decide)
theorem split_no_cr (s : Bytes) : 13#8 ∉ b64Split s := by
  intro h
  rcases split_bytes s _ h with h | h
  · exact absurd h (by decide)
  · exact absurd h.1 (by decide)

/-- The tag of a base64 text. -/
theorem encodeContent_split (h : Head) (s : Bytes) : encodeContent h (b64Split s) = { h with text := b64Split s } := by
  simp [encodeContent, no_cdataEnd (split_no_gt s)]

theorem normText_nil : Spec.normText [] = [] := rfl

/-- A Content value is read back. -/
theorem contentValue_back (d : Bool) (n s : Bytes) :
    contentValue d (rereadOf (contentTag n s)) = some (Spec.normText s) := by
  unfold contentTag
  by_cases hs : s = []
  · subst hs
    simp [rereadOf, reread, contentValue, headBack, leaf, textBack]
    rfl
  · rw [if_neg hs]
    have hc := content_leaf (str "url") s
    simp only [rereadOf, reread, leaf] at hc
    simp [rereadOf, reread, contentValue, headBack, leaf, textBack] at hc ⊢
    rw [if_neg (by decide), hc]

theorem canonType_optional (t : Ty) :
    getCanonType (getCanonTag t true) = (if t = .optional then .invalid else t, true) := by
  cases t <;> decide

theorem okName_optional (t : Ty) : okName (getCanonTag t true) = true := by
  cases t <;> decide

theorem style_string {st : Byte} (h : st.toNat ≤ 1) : fontStyleFromString (fontStyleString st) = (st, true) := by
  have : st = 0#8 ∨ st = 1#8 := by
    rcases Nat.le_one_iff_eq_zero_or_eq_one.1 h with h | h
    · exact .inl (BitVec.eq_of_toNat_eq (by simpa using h))
    · exact .inr (BitVec.eq_of_toNat_eq (by simpa using h))
  rcases this with rfl | rfl <;> decide

theorem style_invalid {st : Byte} (h : ¬ st.toNat ≤ 1) : fontStyleFromString (fontStyleString st) = (0, false) := by
  have h0 : st ≠ 0#8 := by rintro rfl; exact h (by decide)
  have h1 : st ≠ 1#8 := by rintro rfl; exact h (by decide)
  simp only [fontStyleString, if_neg h0, if_neg h1]
  decide

theorem clean_style (st : Byte) : Clean (fontStyleString st) := by
  unfold fontStyleString Clean
  split
  · decide
  · split <;> decide

theorem comp_style {st : Byte} (h : st.toNat ≤ 1) (n : Bytes) :
    readComp F .style (rereadOf (leaf n (fontStyleString st))) = .next (some (.style st)) := by
  simp only [readComp]
  rw [content_clean n (clean_style st), style_string h]
  rfl

theorem comp_style_invalid {st : Byte} (h : ¬ st.toNat ≤ 1) (n : Bytes) :
    readComp F .style (rereadOf (leaf n (fontStyleString st))) = .stop false none := by
  simp only [readComp]
  rw [content_clean n (clean_style st), style_invalid h]
  rfl

theorem formatInt_nat (n : Nat) : formatInt (n : Int) = formatUint n := by
  simp [formatInt]

theorem comp_weight {w : BitVec 16} (h : w.toNat < 2 ^ 15) (n : Bytes) :
    readComp F .weight (rereadOf (leaf n (formatInt w.toNat))) = .next (some (.weight w)) := by
  simp only [readComp]
  rw [content_clean n (clean_int _), formatInt_nat, parseInt_formatUint (by decide) h]
  simp [intComp]

theorem comp_weight_range {w : BitVec 16} (h : ¬ w.toNat < 2 ^ 15) (n : Bytes) :
    readComp F .weight (rereadOf (leaf n (formatInt w.toNat))) = .stop true (some (.weight 0x7fff#16)) := by
  simp only [readComp]
  rw [content_clean n (clean_int _), formatInt_nat, parseInt_formatUint_range (by decide) (by omega)]
  simp [intComp]

/-- The components of a Font. -/
theorem font_from {fam : Bytes} {w : BitVec 16} {st : Byte} (h : Head) (rest : List Tag) :
    getFrom F [(str "Family", .tag), (str "Weight", .weight), (str "Style", .style)]
      ⟨h, rereadOf (contentTag (str "Family") fam) :: rereadOf (leaf (str "Weight") (formatInt w.toNat)) ::
        rereadOf (leaf (str "Style") (fontStyleString st)) :: rest⟩ =
      if w.toNat < 2 ^ 15 then
        if st.toNat ≤ 1 then
          getFromLoop F [(str "Family", .tag), (str "Weight", .weight), (str "Style", .style)] rest
            [str "Style", str "Weight", str "Family"]
            [(str "Family", .tag (rereadOf (contentTag (str "Family") fam))), (str "Weight", .weight w),
              (str "Style", .style st)]
        else (false, [(str "Family", .tag (rereadOf (contentTag (str "Family") fam))), (str "Weight", .weight w)])
      else (true, [(str "Family", .tag (rereadOf (contentTag (str "Family") fam))), (str "Weight", .weight 0x7fff#16)]) := by
  have n1 : (rereadOf (contentTag (str "Family") fam)).head.startName = str "Family" := by rw [start_reread]; rfl
  have n2 : (rereadOf (leaf (str "Weight") (formatInt w.toNat))).head.startName = str "Weight" := by
    rw [start_reread]; rfl
  have n3 : (rereadOf (leaf (str "Style") (fontStyleString st))).head.startName = str "Style" := by
    rw [start_reread]; rfl
  have g1 : Map.get? [(str "Family", Comp.tag), (str "Weight", .weight), (str "Style", .style)] (str "Family") =
    some .tag := by decide
  have g2 : Map.get? [(str "Family", Comp.tag), (str "Weight", .weight), (str "Style", .style)] (str "Weight") =
    some .weight := by decide
  have g3 : Map.get? [(str "Family", Comp.tag), (str "Weight", .weight), (str "Style", .style)] (str "Style") =
    some .style := by decide
  have d2 : str "Weight" ∉ [str "Family"] := by decide
  have d3 : str "Style" ∉ [str "Weight", str "Family"] := by decide
  have e1 : (str "Family" = str "Weight") = False := by decide
  have e2 : (str "Family" = str "Style") = False := by decide
  have e3 : (str "Weight" = str "Style") = False := by decide
  simp only [getFrom, Tag.tags_mk]
  rw [getFromLoop]
  simp only [n1, g1, List.not_mem_nil, if_false, comp_tag]
  rw [getFromLoop]
  simp only [n2, g2, if_neg d2]
  by_cases hw : w.toNat < 2 ^ 15
  · simp only [comp_weight hw, if_pos hw]
    rw [getFromLoop]
    simp only [n3, g3, if_neg d3]
    by_cases hst : st.toNat ≤ 1
    · simp only [comp_style hst, if_pos hst, CompVals.put, Map.set, e1, e2, e3, if_false]
    · simp only [comp_style_invalid hst, if_neg hst, CompVals.put, Map.set, e1, if_false]
  · simp only [comp_weight_range hw, if_neg hw, CompVals.put, Map.set, e1, if_false]


/-- What `getProperty` returns for a value that may be missing. -/
def asProp (n : Bytes) : Option (Value σ) → PropRes σ
  | none => .nothing
  | some w => .value n w

theorem prop_value {d : Bool} {n : Bytes} {t : Tag} {ty : Ty} {v : Value σ}
    (hty : getCanonType t.head.startName = (ty, false)) (hv : getValue F d (rereadOf t) ty = .ok (some v))
    (hp : Plainly v) : getProperty F d (rereadOf (named n t)) = .ok (asProp (Spec.normNewlines n) (some v)) := by
  rw [getProperty_named hty]
  exact propValue_value (by rw [getValue_named]; exact hv) hp

theorem propValue_asProp {d : Bool} {n : Bytes} {t : Tag} {ty : Ty} {o : Option (Value σ)}
    (hv : getValue F d t ty = .ok o) (hp : ∀ v, o = some v → Plainly v) :
    propValue F d n ty false t = .ok (asProp n o) := by
  cases o with
  | none => exact propValue_none hv
  | some v => exact propValue_value hv (hp v rfl)

theorem tidy_leaves {ts : List (Bytes × Bytes)} (h : ∀ x ∈ ts, okName x.1 = true) :
    Tidy (ts.map fun x => leaf x.1 x.2) := by
  rw [tidy_iff]
  intro t ht
  obtain ⟨x, hx, rfl⟩ := List.mem_map.1 ht
  exact tidy_leaf (h x hx)

theorem tidy_xyz (v : Vector3) : Tidy (xyzTags F v) :=
  ⟨tidy_leaf (by decide), tidy_leaf (by decide), tidy_leaf (by decide), trivial⟩
theorem tidy_xy (v : Vector2) : Tidy (xyTags F v) :=
  ⟨tidy_leaf (by decide), tidy_leaf (by decide), trivial⟩
theorem tidy_cframe (p : Vector3) (r : Matrix) : Tidy (cframeTags F p r) :=
  ⟨tidy_leaf (by decide), tidy_leaf (by decide), tidy_leaf (by decide), tidy_leaf (by decide), tidy_leaf (by decide),
    tidy_leaf (by decide), tidy_leaf (by decide), tidy_leaf (by decide), tidy_leaf (by decide), tidy_leaf (by decide),
    tidy_leaf (by decide), tidy_leaf (by decide), trivial⟩
theorem tidy_content {n : Bytes} (hn : okName n = true) (s : Bytes) : TidyTag (contentTag n s) := by
  unfold contentTag
  refine tidy_plain hn ⟨?_, trivial⟩
  split <;> exact tidy_leaf (by decide)

theorem encodeContent_no {h : Head} {s : Bytes} (hs : ¬ [93#8, 93#8, 62#8] <:+: s) :
    encodeContent h s = { h with text := s } := by
  have : hasCDataEnd s = false := by rw [Bool.eq_false_iff, ne_eq, hasCDataEnd_iff]; exact hs
  simp [encodeContent, this]

/-- The CFrame in a tag. -/
theorem cframe_back (hF : ReadableText F) (d : Bool) (name : Bytes) (p : Vector3) (r : Matrix) :
    (getValue F d (rereadOf (node name (cframeTags F p r))) .cframe : Res (Option (Value σ))) =
      .ok (some (.cframe (back3 F p) (backM F r))) := by
  simp only [getValue]
  rw [compValue_exact (vs := [(str "X", .f32 (back32 F 9 p.x)), (str "Y", .f32 (back32 F 9 p.y)), (str "Z", .f32 (back32 F 9 p.z)),
      (str "R00", .f32 (back32 F 9 r.m0)), (str "R01", .f32 (back32 F 9 r.m1)), (str "R02", .f32 (back32 F 9 r.m2)),
      (str "R10", .f32 (back32 F 9 r.m3)), (str "R11", .f32 (back32 F 9 r.m4)), (str "R12", .f32 (back32 F 9 r.m5)),
      (str "R20", .f32 (back32 F 9 r.m6)), (str "R21", .f32 (back32 F 9 r.m7)), (str "R22", .f32 (back32 F 9 r.m8))])
      (by decide) (comps_cframe hF p r)]
  rfl

theorem font_back (d : Bool) (fam c : Bytes) (w : BitVec 16) (st : Byte) :
    (getValue F d (rereadOf (node (str "Font") ([contentTag (str "Family") fam,
      leaf (str "Weight") (formatInt w.toNat), leaf (str "Style") (fontStyleString st)] ++
      (if c = [] then [] else [contentTag (str "CachedFaceId") c])))) .font : Res (Option (Value σ))) =
    .ok (if w.toNat < 2 ^ 15 then
      if st.toNat ≤ 1 then some (.font (Spec.normText fam) w st (Spec.normText c))
      else if d then none else some (.font [] 0 0 [])
    else some (.font (Spec.normText fam) 0x7fff#16 0 (Spec.normText c))) := by
  have hfam := contentValue_back d (str "Family") fam
  have hcf := contentValue_back d (str "CachedFaceId") c
  -- the second reading of the components
  have nf : (rereadOf (contentTag (str "Family") fam)).head.startName = str "Family" := by rw [start_reread]; rfl
  have nw : (rereadOf (leaf (str "Weight") (formatInt w.toNat))).head.startName = str "Weight" := by
    rw [start_reread]; rfl
  have ns : (rereadOf (leaf (str "Style") (fontStyleString st))).head.startName = str "Style" := by
    rw [start_reread]; rfl
  have nc : (rereadOf (contentTag (str "CachedFaceId") c)).head.startName = str "CachedFaceId" := by
    rw [start_reread]; rfl
  have k1 : Map.get? [(str "CachedFaceId", Comp.tag)] (str "Family") = none := by decide
  have k2 : Map.get? [(str "CachedFaceId", Comp.tag)] (str "Weight") = none := by decide
  have k3 : Map.get? [(str "CachedFaceId", Comp.tag)] (str "Style") = none := by decide
  have k4 : Map.get? [(str "CachedFaceId", Comp.tag)] (str "CachedFaceId") = some .tag := by decide
  have q4 : Map.get? [(str "Family", Comp.tag), (str "Weight", .weight), (str "Style", .style)] (str "CachedFaceId") =
    none := by decide
  by_cases hc : c = []
  · subst hc
    simp only [if_true, List.append_nil]
    have hr : rereadOf (node (str "Font") [contentTag (str "Family") fam,
        leaf (str "Weight") (formatInt w.toNat), leaf (str "Style") (fontStyleString st)]) =
        ⟨headBack { startName := str "Font" }, [rereadOf (contentTag (str "Family") fam),
          rereadOf (leaf (str "Weight") (formatInt w.toNat)), rereadOf (leaf (str "Style") (fontStyleString st))]⟩ := rfl
    have h2 : getFrom F [(str "CachedFaceId", .tag)] ⟨headBack { startName := str "Font" },
        [rereadOf (contentTag (str "Family") fam), rereadOf (leaf (str "Weight") (formatInt w.toNat)),
          rereadOf (leaf (str "Style") (fontStyleString st))]⟩ = (false, []) := by
      simp [getFrom, getFromLoop, nf, nw, ns, k1, k2, k3]
    rw [hr]
    simp only [getValue, fontValue, font_from, h2]
    by_cases hw : w.toNat < 2 ^ 15
    · by_cases hs : st.toNat ≤ 1
      · simp only [if_pos hw, if_pos hs, getFromLoop]
        simp [CompVals.tag, CompVals.weight, CompVals.style, Map.get?, hfam, normText_nil,
          show (str "Family" = str "Weight") = False by decide, show (str "Family" = str "Style") = False by decide,
          show (str "Weight" = str "Style") = False by decide]
      · simp only [if_pos hw, if_neg hs, Bool.not_false, if_true]
        cases d <;> rfl
    · simp only [if_neg hw]
      simp [CompVals.tag, CompVals.weight, CompVals.style, Map.get?, hfam, normText_nil,
          show (str "Family" = str "Weight") = False by decide, show (str "Family" = str "Style") = False by decide,
          show (str "Weight" = str "Style") = False by decide]
  · simp only [if_neg hc]
    have hr : rereadOf (node (str "Font") ([contentTag (str "Family") fam,
        leaf (str "Weight") (formatInt w.toNat), leaf (str "Style") (fontStyleString st)] ++
        [contentTag (str "CachedFaceId") c])) =
        ⟨headBack { startName := str "Font" }, [rereadOf (contentTag (str "Family") fam),
          rereadOf (leaf (str "Weight") (formatInt w.toNat)), rereadOf (leaf (str "Style") (fontStyleString st)),
          rereadOf (contentTag (str "CachedFaceId") c)]⟩ := rfl
    have h2 : getFrom F [(str "CachedFaceId", .tag)] ⟨headBack { startName := str "Font" },
        [rereadOf (contentTag (str "Family") fam), rereadOf (leaf (str "Weight") (formatInt w.toNat)),
          rereadOf (leaf (str "Style") (fontStyleString st)), rereadOf (contentTag (str "CachedFaceId") c)]⟩ =
        (true, [(str "CachedFaceId", .tag (rereadOf (contentTag (str "CachedFaceId") c)))]) := by
      simp [getFrom, getFromLoop, nf, nw, ns, nc, k1, k2, k3, k4, comp_tag, CompVals.put, Map.set]
    rw [hr]
    simp only [getValue, fontValue, font_from, h2]
    by_cases hw : w.toNat < 2 ^ 15
    · by_cases hs : st.toNat ≤ 1
      · simp only [if_pos hw, if_pos hs, getFromLoop, nc, q4]
        simp [CompVals.tag, CompVals.weight, CompVals.style, Map.get?, hfam, hcf,
          show (str "Family" = str "Weight") = False by decide, show (str "Family" = str "Style") = False by decide,
          show (str "Weight" = str "Style") = False by decide]
      · simp only [if_pos hw, if_neg hs, Bool.not_false, if_true]
        cases d <;> rfl
    · simp only [if_neg hw]
      simp [CompVals.tag, CompVals.weight, CompVals.style, Map.get?, hfam, hcf,
          show (str "Family" = str "Weight") = False by decide, show (str "Family" = str "Style") = False by decide,
          show (str "Weight" = str "Style") = False by decide]

theorem bits_flags : ∀ a b c d e f : Bool,
    let n := BitVec.ofNat 32 (flagBits [a, b, c, d, e, f])
    bit n 0 = a ∧ bit n 1 = b ∧ bit n 2 = c ∧ bit n 3 = d ∧ bit n 4 = e ∧ bit n 5 = f := by decide
theorem bits_axes : ∀ a b c : Bool,
    let n := BitVec.ofNat 32 (flagBits [a, b, c])
    bit n 0 = a ∧ bit n 1 = b ∧ bit n 2 = c := by decide

theorem clamp_uint (n : BitVec 32) : ∃ e, parseInt 32 (formatUint n.toNat) =
    (((if n.toNat < 2 ^ 31 then n else 0x7fffffff#32).toNat : Int), e) ∧ e ≠ .syntax := by
  by_cases h : n.toNat < 2 ^ 31
  · exact ⟨.none, by rw [parseInt_formatUint (by decide) h, if_pos h], by simp⟩
  · exact ⟨.range, by rw [parseInt_formatUint_range (by decide) (by omega), if_neg h]; rfl, by simp⟩

theorem color_bytes (r g b : Byte) :
    BitVec.ofNat 8 ((255 * 16777216 + r.toNat * 65536 + g.toNat * 256 + b.toNat) / 65536) = r ∧
    BitVec.ofNat 8 ((255 * 16777216 + r.toNat * 65536 + g.toNat * 256 + b.toNat) / 256) = g ∧
    BitVec.ofNat 8 (255 * 16777216 + r.toNat * 65536 + g.toNat * 256 + b.toNat) = b := by
  have := r.isLt; have := g.isLt; have := b.isLt
  refine ⟨?_, ?_, ?_⟩ <;> (apply BitVec.eq_of_toNat_eq; rw [BitVec.toNat_ofNat]; omega)

/-- The tag of a property can be read back, and is decoded as the value `backValue` gives. -/
theorem property_back (hF : ReadableText F) {hash : Bytes → Bytes} (d : Bool) (n : Bytes) {v : Value ρ} {ref : Bytes}
    {t : Tag} (ht : encodeValue F hash ref v = some t)
    (hcd : ∀ s, v = .protectedString s → ¬ [93#8, 93#8, 62#8] <:+: s)
    (hv : v.type ≠ .reference) (hs : v.type ≠ .sharedString) :
    TidyTag (named n t) ∧
    getProperty F d (rereadOf (named n t)) = .ok (asProp (Spec.normNewlines n) (backValue F d v : Option (Value σ))) := by
  cases v with
  | string s =>
    cases ht
    refine ⟨tidy_named n (tidy_leaf (by decide)), ?_⟩
    refine prop_value (ty := .string) rfl ?_ ⟨by simp [Value.type], by simp [Value.type]⟩
    simp only [getValue, content_leaf]
  | binaryString s =>
    simp only [encodeValue, encodeContent_split] at ht
    cases ht
    refine ⟨tidy_named n (tidy_plain (by decide) trivial), ?_⟩
    refine prop_value (ty := .binaryString) rfl ?_ ⟨by simp [Value.type], by simp [Value.type]⟩
    simp only [getValue]
    rw [content_text _ _ rfl]
    simp only [Props.normText_of_no_cr (split_no_cr s), b64Decode_split]
  | protectedString s =>
    simp only [encodeValue, encodeContent_no (hcd s rfl)] at ht
    cases ht
    refine ⟨tidy_named n (tidy_plain (by decide) trivial), ?_⟩
    refine prop_value (ty := .protectedString) rfl ?_ ⟨by simp [Value.type], by simp [Value.type]⟩
    simp only [getValue]
    rw [content_text _ _ rfl]
  | content s =>
    cases ht
    refine ⟨tidy_named n (tidy_content (by decide) s), ?_⟩
    refine prop_value (ty := .content) rfl ?_ ⟨by simp [Value.type], by simp [Value.type]⟩
    simp only [getValue, contentValue_back]
    rfl
  | bool b =>
    cases ht
    refine ⟨tidy_named n (tidy_leaf (by decide)), ?_⟩
    refine prop_value (ty := .bool) rfl ?_ ⟨by simp [Value.type], by simp [Value.type]⟩
    simp only [getValue, boolValue, content_leaf]
    cases b <;> rfl
  | int x =>
    cases ht
    refine ⟨tidy_named n (tidy_leaf (by decide)), ?_⟩
    refine prop_value (ty := .int) rfl ?_ ⟨by simp [Value.type], by simp [Value.type]⟩
    simp only [getValue]
    rw [content_clean _ (clean_int _), parseInt_toInt (by decide)]
    simp [numValue]
  | float f =>
    cases ht
    refine ⟨tidy_named n (tidy_leaf (by decide)), ?_⟩
    refine prop_value (ty := .float) rfl ?_ ⟨by simp [Value.type], by simp [Value.type]⟩
    simp only [getValue]
    rw [content_clean _ (clean_float9 hF f), parse_float hF]
  | double f =>
    cases ht
    refine ⟨tidy_named n (tidy_leaf (by decide)), ?_⟩
    refine prop_value (ty := .double) rfl ?_ ⟨by simp [Value.type], by simp [Value.type]⟩
    simp only [getValue]
    rw [content_clean _ (clean_double hF f), parse_double hF]
  | udim u =>
    cases ht
    refine ⟨tidy_named n (tidy_node (by decide) ⟨tidy_leaf (by decide), tidy_leaf (by decide), trivial⟩), ?_⟩
    refine prop_value (ty := .udim) rfl ?_ ⟨by simp [Value.type], by simp [Value.type]⟩
    simp only [getValue]
    rw [compValue_exact (by decide) (.cons rfl (comp_f32 hF _ _) (.cons rfl (comp_i32 _ _) .nil))]
    rfl
  | udim2 x y =>
    cases ht
    refine ⟨tidy_named n (tidy_node (by decide) ⟨tidy_leaf (by decide), tidy_leaf (by decide), tidy_leaf (by decide),
      tidy_leaf (by decide), trivial⟩), ?_⟩
    refine prop_value (ty := .udim2) rfl ?_ ⟨by simp [Value.type], by simp [Value.type]⟩
    simp only [getValue]
    rw [compValue_exact (by decide) (.cons rfl (comp_f32 hF _ _) (.cons rfl (comp_i32 _ _)
      (.cons rfl (comp_f32 hF _ _) (.cons rfl (comp_i32 _ _) .nil))))]
    rfl
  | ray o dir =>
    cases ht
    refine ⟨tidy_named n (tidy_node (by decide) ⟨tidy_node (by decide) (tidy_xyz o),
      tidy_node (by decide) (tidy_xyz o), trivial⟩), ?_⟩
    refine prop_value (ty := .ray) rfl ?_ ⟨by simp [Value.type], by simp [Value.type]⟩
    simp only [getValue]
    have := pairValue_exact (F := F) (d := d) (n1 := str "origin") (n2 := str "direction") (c := xyzComps)
      (zero := (.ray ⟨0, 0, 0⟩ ⟨0, 0, 0⟩ : Value σ))
      (mk := fun a b => .ray ⟨a.f32 (str "X"), a.f32 (str "Y"), a.f32 (str "Z")⟩
        ⟨b.f32 (str "X"), b.f32 (str "Y"), b.f32 (str "Z")⟩)
      (h := headBack { startName := str "Ray" }) (a := rereadOf (node (str "origin") (xyzTags F o)))
      (b := rereadOf (node (str "direction") (xyzTags F o)))
      (by decide) rfl rfl (by decide) (comps_xyz hF o) (comps_xyz hF o)
    exact congrArg Res.ok this
  | faces r t b l bo f =>
    cases ht
    refine ⟨tidy_named n (tidy_node (by decide) ⟨tidy_leaf (by decide), trivial⟩), ?_⟩
    refine prop_value (ty := .faces) rfl ?_ ⟨by simp [Value.type], by simp [Value.type]⟩
    simp only [getValue]
    rw [compValue_exact (by decide) (.cons rfl (comp_u32 _ (by
      have := flagBits_lt [r, t, b, l, bo, f]; simp at this; omega)) .nil)]
    have := bits_flags r t b l bo f
    simp only at this
    simp [CompVals.i32, Map.get?, this]
  | axes x y z =>
    cases ht
    refine ⟨tidy_named n (tidy_node (by decide) ⟨tidy_leaf (by decide), trivial⟩), ?_⟩
    refine prop_value (ty := .axes) rfl ?_ ⟨by simp [Value.type], by simp [Value.type]⟩
    simp only [getValue]
    rw [compValue_exact (by decide) (.cons rfl (comp_u32 _ (by
      have := flagBits_lt [x, y, z]; simp at this; omega)) .nil)]
    have := bits_axes x y z
    simp only at this
    simp [CompVals.i32, Map.get?, this]
  | brickColor x =>
    cases ht
    refine ⟨tidy_named n (tidy_leaf (by decide)), ?_⟩
    refine prop_value (ty := .int) rfl ?_ ⟨by simp [Value.type], by simp [Value.type]⟩
    simp only [getValue]
    obtain ⟨e, he, hne⟩ := clamp_uint x
    rw [content_clean _ (clean_uint _), he]
    cases e <;> first | exact absurd rfl hne | simp [numValue]
  | color3 c =>
    cases ht
    refine ⟨tidy_named n (tidy_node (by decide) ⟨tidy_leaf (by decide), tidy_leaf (by decide), tidy_leaf (by decide),
      trivial⟩), ?_⟩
    refine prop_value (ty := .color3) rfl ?_ ⟨by simp [Value.type], by simp [Value.type]⟩
    simp only [getValue]
    rw [if_neg (by simp [rereadOf, node, getContent, headBack, textBack]), compValue_exact (by decide) (.cons rfl (comp_f32 hF _ _)
      (.cons rfl (comp_f32 hF _ _) (.cons rfl (comp_f32 hF _ _) .nil)))]
    rfl
  | vector2 v =>
    cases ht
    refine ⟨tidy_named n (tidy_node (by decide) (tidy_xy v)), ?_⟩
    refine prop_value (ty := .vector2) rfl ?_ ⟨by simp [Value.type], by simp [Value.type]⟩
    simp only [getValue]
    rw [compValue_exact (by decide) (comps_xy hF v)]
    rfl
  | vector3 v =>
    cases ht
    refine ⟨tidy_named n (tidy_node (by decide) (tidy_xyz v)), ?_⟩
    refine prop_value (ty := .vector3) rfl ?_ ⟨by simp [Value.type], by simp [Value.type]⟩
    simp only [getValue]
    rw [compValue_exact (by decide) (comps_xyz hF v)]
    rfl
  | cframe p r =>
    cases ht
    refine ⟨tidy_named n (tidy_node (by decide) (tidy_cframe p r)), ?_⟩
    exact prop_value (ty := .cframe) rfl (cframe_back hF d _ p r) ⟨by simp [Value.type], by simp [Value.type]⟩
  | token x =>
    cases ht
    refine ⟨tidy_named n (tidy_leaf (by decide)), ?_⟩
    refine prop_value (ty := .token) rfl ?_ ⟨by simp [Value.type], by simp [Value.type]⟩
    simp only [getValue]
    obtain ⟨e, he, hne⟩ := clamp_uint x
    rw [content_clean _ (clean_uint _), he]
    cases e <;> first | exact absurd rfl hne | simp [numValue]
  | reference p => exact absurd rfl hv
  | vector3int16 x y z =>
    cases ht
    refine ⟨tidy_named n (tidy_node (by decide) ⟨tidy_leaf (by decide), tidy_leaf (by decide), tidy_leaf (by decide),
      trivial⟩), ?_⟩
    refine prop_value (ty := .vector3int16) rfl ?_ ⟨by simp [Value.type], by simp [Value.type]⟩
    simp only [getValue]
    rw [compValue_exact (by decide) (.cons rfl (comp_i16 _ _) (.cons rfl (comp_i16 _ _)
      (.cons rfl (comp_i16 _ _) .nil)))]
    rfl
  | vector2int16 x y =>
    cases ht
    refine ⟨tidy_named n (tidy_node (by decide) ⟨tidy_leaf (by decide), tidy_leaf (by decide), trivial⟩), ?_⟩
    refine prop_value (ty := .vector2int16) rfl ?_ ⟨by simp [Value.type], by simp [Value.type]⟩
    simp only [getValue]
    rw [compValue_exact (by decide) (.cons rfl (comp_i16 _ _) (.cons rfl (comp_i16 _ _) .nil))]
    rfl
  | numberSequence ks =>
    cases ht
    refine ⟨tidy_named n (tidy_plain (by decide) trivial), ?_⟩
    refine prop_value (ty := .numberSequence) rfl ?_ ⟨by simp [Value.type], by simp [Value.type]⟩
    simp only [getValue]
    rw [content_text _ _ rfl, Props.normText_of_no_cr (numbers_no_cr hF ks), scanNumbers_text hF ks _ (by omega)]
  | colorSequence ks =>
    cases ht
    refine ⟨tidy_named n (tidy_plain (by decide) trivial), ?_⟩
    refine prop_value (ty := .colorSequence) rfl ?_ ⟨by simp [Value.type], by simp [Value.type]⟩
    simp only [getValue]
    rw [content_text _ _ rfl, Props.normText_of_no_cr (colors_no_cr hF ks), scanColors_text hF ks _ (by omega)]
  | numberRange a b =>
    cases ht
    refine ⟨tidy_named n (tidy_plain (by decide) trivial), ?_⟩
    refine prop_value (ty := .numberRange) rfl ?_ ⟨by simp [Value.type], by simp [Value.type]⟩
    simp only [getValue]
    have hb := scan_one hF b [] (by simp)
    rw [List.append_nil] at hb
    have hno : 13#8 ∉ seqFloat F a ++ seqFloat F b := by simp [seqFloat_no_cr hF]
    have ha := scan_one hF a (seqFloat F b) (by have := seq_head hF b []; simpa using this)
    rw [content_text _ _ rfl]
    simp only [Props.normText_of_no_cr hno, ha, hb]
  | rect a b =>
    cases ht
    refine ⟨tidy_named n (tidy_node (by decide) ⟨tidy_node (by decide) (tidy_xy a),
      tidy_node (by decide) (tidy_xy b), trivial⟩), ?_⟩
    refine prop_value (ty := .rect) rfl ?_ ⟨by simp [Value.type], by simp [Value.type]⟩
    simp only [getValue]
    have := pairValue_exact (F := F) (d := d) (n1 := str "min") (n2 := str "max") (c := xyComps)
      (zero := (.rect ⟨0, 0⟩ ⟨0, 0⟩ : Value σ))
      (mk := fun a b => .rect ⟨a.f32 (str "X"), a.f32 (str "Y")⟩ ⟨b.f32 (str "X"), b.f32 (str "Y")⟩)
      (h := headBack { startName := str "Rect2D" }) (a := rereadOf (node (str "min") (xyTags F a)))
      (b := rereadOf (node (str "max") (xyTags F b)))
      (by decide) rfl rfl (by decide) (comps_xy hF a) (comps_xy hF b)
    exact congrArg Res.ok this
  | physicalProperties c dn f e fw ew =>
    have hcp : ∀ (h : Head) (b : Bytes) (rest : List Tag), getFrom F [(str "CustomPhysics", .tag)]
        ⟨h, rereadOf ⟨{ startName := str "CustomPhysics", text := b }, []⟩ :: reread rest⟩ =
        getFromLoop F [(str "CustomPhysics", .tag)] (reread rest) [str "CustomPhysics"]
          [(str "CustomPhysics", .tag (rereadOf ⟨{ startName := str "CustomPhysics", text := b }, []⟩))] := by
      intro h b rest
      simp only [getFrom, Tag.tags_mk]
      rw [getFromLoop, start_reread]
      rfl
    cases c with
    | false =>
      cases ht
      refine ⟨tidy_named n (tidy_node (by decide) ⟨tidy_plain (by decide) trivial, trivial⟩), ?_⟩
      refine prop_value (ty := .physicalProperties) rfl ?_ ⟨by simp [Value.type], by simp [Value.type]⟩
      simp only [getValue]
      have h1 := hcp (headBack { startName := str "PhysicalProperties" }) (str "false") []
      simp only [reread] at h1
      have e1 : rereadOf (node (str "PhysicalProperties") [⟨{ startName := str "CustomPhysics", text := str "false" }, []⟩])
        = ⟨headBack { startName := str "PhysicalProperties" },
          [rereadOf ⟨{ startName := str "CustomPhysics", text := str "false" }, []⟩]⟩ := rfl
      simp only [Bool.false_eq_true, if_false, e1, physValue, h1]
      have hb : boolValue d (rereadOf ⟨{ startName := str "CustomPhysics", text := str "false" }, []⟩) = some false := by
        unfold boolValue; rw [content_text _ _ rfl]; rfl
      simp [getFromLoop, CompVals.tag, Map.get?, hb]
    | true =>
      cases ht
      refine ⟨tidy_named n (tidy_node (by decide) ⟨tidy_plain (by decide) trivial, tidy_plain (by decide) trivial,
        tidy_plain (by decide) trivial, tidy_plain (by decide) trivial, tidy_plain (by decide) trivial,
        tidy_plain (by decide) trivial, trivial⟩), ?_⟩
      refine prop_value (ty := .physicalProperties) rfl ?_ ⟨by simp [Value.type], by simp [Value.type]⟩
      simp only [getValue]
      have h1 := hcp (headBack { startName := str "PhysicalProperties" }) (str "true")
        [⟨{ startName := str "Density", text := encodeFloat F dn }, []⟩,
        ⟨{ startName := str "Friction", text := encodeFloat F f }, []⟩,
        ⟨{ startName := str "Elasticity", text := encodeFloat F e }, []⟩,
        ⟨{ startName := str "FrictionWeight", text := encodeFloat F fw }, []⟩,
        ⟨{ startName := str "ElasticityWeight", text := encodeFloat F ew }, []⟩]
      have h2 : getFrom F physComps ⟨headBack { startName := str "PhysicalProperties" },
          rereadOf ⟨{ startName := str "CustomPhysics", text := str "true" }, []⟩ :: reread
        [⟨{ startName := str "Density", text := encodeFloat F dn }, []⟩,
        ⟨{ startName := str "Friction", text := encodeFloat F f }, []⟩,
        ⟨{ startName := str "Elasticity", text := encodeFloat F e }, []⟩,
        ⟨{ startName := str "FrictionWeight", text := encodeFloat F fw }, []⟩,
        ⟨{ startName := str "ElasticityWeight", text := encodeFloat F ew }, []⟩]⟩ =
        (true, [(str "Density", .f32 (back32 F 9 dn)), (str "Friction", .f32 (back32 F 9 f)),
          (str "Elasticity", .f32 (back32 F 9 e)), (str "FrictionWeight", .f32 (back32 F 9 fw)),
          (str "ElasticityWeight", .f32 (back32 F 9 ew))]) := by
        have h3 := getFrom_exact F (c := physComps) (by decide) (t := ⟨headBack { startName := str "PhysicalProperties" },
          reread [⟨{ startName := str "Density", text := encodeFloat F dn }, []⟩,
          ⟨{ startName := str "Friction", text := encodeFloat F f }, []⟩,
          ⟨{ startName := str "Elasticity", text := encodeFloat F e }, []⟩,
          ⟨{ startName := str "FrictionWeight", text := encodeFloat F fw }, []⟩,
          ⟨{ startName := str "ElasticityWeight", text := encodeFloat F ew }, []⟩]⟩)
          (.cons rfl (comp_f32' hF _ _) (.cons rfl (comp_f32' hF _ _) (.cons rfl (comp_f32' hF _ _)
            (.cons rfl (comp_f32' hF _ _) (.cons rfl (comp_f32' hF _ _) .nil)))))
        rw [← h3]
        simp only [getFrom, Tag.tags_mk]
        rw [getFromLoop, start_reread]
        rfl
      have e1 : ∀ l, rereadOf (node (str "PhysicalProperties")
          (⟨{ startName := str "CustomPhysics", text := str "true" }, []⟩ :: l))
        = ⟨headBack { startName := str "PhysicalProperties" },
          rereadOf ⟨{ startName := str "CustomPhysics", text := str "true" }, []⟩ :: reread l⟩ := fun _ => rfl
      simp only [if_true, e1, physValue, h1, h2]
      have hb : boolValue d (rereadOf ⟨{ startName := str "CustomPhysics", text := str "true" }, []⟩) = some true := by
        unfold boolValue; rw [content_text _ _ rfl]; rfl
      have h4 : (getFromLoop F [(str "CustomPhysics", .tag)] (reread
        [⟨{ startName := str "Density", text := encodeFloat F dn }, []⟩,
        ⟨{ startName := str "Friction", text := encodeFloat F f }, []⟩,
        ⟨{ startName := str "Elasticity", text := encodeFloat F e }, []⟩,
        ⟨{ startName := str "FrictionWeight", text := encodeFloat F fw }, []⟩,
        ⟨{ startName := str "ElasticityWeight", text := encodeFloat F ew }, []⟩]) [str "CustomPhysics"]
          [(str "CustomPhysics", .tag (rereadOf ⟨{ startName := str "CustomPhysics", text := str "true" }, []⟩))]) =
          (true, [(str "CustomPhysics", .tag (rereadOf ⟨{ startName := str "CustomPhysics", text := str "true" }, []⟩))]) := rfl
      simp only [h4]
      simp only [CompVals.tag, Map.get?, hb, if_true]
      rfl
  | color3uint8 r g b =>
    cases ht
    refine ⟨tidy_named n (tidy_leaf (by decide)), ?_⟩
    refine prop_value (ty := .color3uint8) rfl ?_ ⟨by simp [Value.type], by simp [Value.type]⟩
    simp only [getValue]
    have hlt : 255 * 16777216 + r.toNat * 65536 + g.toNat * 256 + b.toNat < 2 ^ 32 := by
      have := r.isLt; have := g.isLt; have := b.isLt; omega
    obtain ⟨c1, c2, c3⟩ := color_bytes r g b
    rw [content_clean _ (clean_uint _), if_pos (formatUint_ne_nil _), parseUint_formatUint hlt]
    simp only [numValue, c1, c2, c3]
  | int64 x =>
    cases ht
    refine ⟨tidy_named n (tidy_leaf (by decide)), ?_⟩
    refine prop_value (ty := .int64) rfl ?_ ⟨by simp [Value.type], by simp [Value.type]⟩
    simp only [getValue]
    rw [content_clean _ (clean_int _), parseInt_toInt (by decide)]
    simp [numValue]
  | sharedString s => exact absurd rfl hs
  | optional ty o =>
    have hopt : ∀ (t : Tag), t.head.startName = getCanonTag ty true → t.tags = [] →
        (getProperty F d (rereadOf (named n t)) : Res (PropRes σ)) =
          .ok (.value (Spec.normNewlines n) (.optional (if ty = .optional then .invalid else ty) none)) := by
      intro t h1 h2
      have h3 : (rereadOf (named n t)).tags = [] := by rw [tags_reread, tags_named, h2]; rfl
      simp only [getProperty, attr_named, start_reread, start_named, h1, canonType_optional, if_true, getOptional, h3]
    rcases o with _ | w
    · cases ht
      exact ⟨tidy_named n (tidy_plain (okName_optional ty) trivial), hopt _ rfl rfl⟩
    · by_cases hw : ∃ p r, w = .cframe p r
      · obtain ⟨p, r, rfl⟩ := hw
        cases ht
        refine ⟨tidy_named n (tidy_node (okName_optional ty) ⟨tidy_node (by decide) (tidy_cframe p r), trivial⟩), ?_⟩
        simp only [getProperty, attr_named, start_reread, start_named, backValue]
        have e : (node (getCanonTag ty true) [node (str "CFrame") (cframeTags F p r)]).head.startName =
          getCanonTag ty true := rfl
        rw [e, canonType_optional]
        simp only [if_true, getOptional, tags_reread, tags_named]
        have e2 : reread (node (getCanonTag ty true) [node (str "CFrame") (cframeTags F p r)]).tags =
          [rereadOf (node (str "CFrame") (cframeTags F p r))] := rfl
        simp only [e2]
        by_cases hty : ty = .cframe
        · subst hty
          have hg : getFrom F [(str "CFrame", .tag)] (rereadOf (named n (node (getCanonTag .cframe true)
              [node (str "CFrame") (cframeTags F p r)]))) =
              (true, [(str "CFrame", .tag (rereadOf (node (str "CFrame") (cframeTags F p r))))]) :=
            getFrom_exact F (by decide) (.cons rfl rfl .nil)
          simp only [show (Ty.cframe = Ty.optional) = False by simp, if_false, if_true, hg, CompVals.tag, Map.get?]
          unfold propValue
          simp only [cframe_back hF]
          rfl
        · have : (if ty = .optional then Ty.invalid else ty) ≠ .cframe := by
            split <;> simp [hty]
          simp only [if_neg this, if_neg hty]
          rfl
      · have h1 : encodeValue F hash ref (.optional ty (some w) : Value ρ) = some (node (getCanonTag ty true) []) := by
          cases w <;> first | rfl | exact absurd ⟨_, _, rfl⟩ hw
        have h2 : (backValue F d (.optional ty (some w) : Value ρ) : Option (Value σ)) =
            some (.optional (if ty = .optional then .invalid else ty) none) := by
          cases w <;> first | rfl | exact absurd ⟨_, _, rfl⟩ hw
        rw [h1] at ht
        cases ht
        rw [h2]
        exact ⟨tidy_named n (tidy_node (okName_optional ty) trivial), hopt _ rfl rfl⟩
  | uniqueId r t i =>
    cases ht
    refine ⟨tidy_named n (tidy_plain (by decide) trivial), ?_⟩
    refine prop_value (ty := .uniqueId) rfl ?_ ⟨by simp [Value.type], by simp [Value.type]⟩
    simp only [getValue, uniqueIdValue]
    have htx : (rereadOf ⟨{ startName := str "UniqueId", text := hexDigits hexLower (be64 r ++ be32 t ++ be32 i) }, []⟩).head.text
        = hexDigits hexLower (be64 r ++ be32 t ++ be32 i) := normText_clean (clean_hex _)
    rw [htx, List.take_of_length_le (by rw [hexDigits_length]; simp), hexDecode_digits]
    have h3 : readBe32 (be32 i) = .ok (i, []) := by have := readBe32_be32 i []; rwa [List.append_nil] at this
    simp only [List.append_assoc, readBe64_be64, readBe32_be32, h3]
    rw [if_neg (by simp)]
  | font fam w st c =>
    cases ht
    refine ⟨tidy_named n (tidy_node (by decide) ⟨tidy_content (by decide) _, tidy_leaf (by decide), tidy_leaf (by decide),
      ?_⟩), ?_⟩
    · split
      · trivial
      · exact ⟨tidy_content (by decide) _, trivial⟩
    · have hb := font_back (F := F) (σ := σ) d fam c w st
      rw [getProperty_named (ty := .font) rfl]
      refine propValue_asProp (by rw [getValue_named]; exact hb) ?_
      intro v hv'
      simp only [backValue] at hv'
      split at hv' <;> try split at hv'
      all_goals try split at hv'
      all_goals first | (cases hv'; exact ⟨by simp [Value.type], by simp [Value.type]⟩) | (cases hv'; done)

/-- The tag of a reference. -/
theorem reference_back {hash : Bytes → Bytes} (d : Bool) (n ref : Bytes) (p : Option ρ) :
    ∃ t, encodeValue F hash ref (.reference p : Value ρ) = some t ∧ TidyTag (named n t) ∧
    (getProperty F d (rereadOf (named n t)) : Res (PropRes σ)) =
      .ok (if isEmptyReference (Spec.normText ref) then .value (Spec.normNewlines n) (.reference none)
        else .ref (Spec.normNewlines n) (Spec.normText ref)) := by
  refine ⟨_, rfl, tidy_named n (tidy_leaf (by decide)), ?_⟩
  rw [getProperty_named (ty := .reference) rfl]
  unfold propValue
  simp only [getValue, content_named, content_leaf]
  split <;> rfl

/-- The tag of a shared string. -/
theorem shared_back {hash : Bytes → Bytes} (d : Bool) (n ref s : Bytes) :
    ∃ t, encodeValue F hash ref (.sharedString s : Value ρ) = some t ∧ TidyTag (named n t) ∧
    (getProperty F d (rereadOf (named n t)) : Res (PropRes σ)) = .ok (.shared (Spec.normNewlines n) (hash s)) := by
  refine ⟨_, rfl, tidy_named n (by rw [encodeContent_split]; exact tidy_plain (by decide) trivial), ?_⟩
  rw [encodeContent_split, getProperty_named (ty := .sharedString) rfl]
  unfold propValue
  rw [getValue_named]
  simp only [getValue]
  rw [content_text _ _ rfl]
  simp only [Props.normText_of_no_cr (split_no_cr _), b64Decode_split]

end Rbxlx

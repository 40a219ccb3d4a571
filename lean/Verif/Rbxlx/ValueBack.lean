import Verif.Rbxlx.CodecBack
/-!
# Values read back from their tags
-/
namespace Rbxlx
open Go Rbxfile

/-- What is assumed of the texts of floating point numbers: they are made of printable characters, and what is
written can be read. -/
structure ReadableText (F : FloatText) : Prop where
  bytes32 : ∀ p f, ∀ b ∈ F.format32 p f, 33 ≤ b.toNat
  nonempty32 : ∀ p f, F.format32 p f ≠ []
  bytes64 : ∀ p f, ∀ b ∈ F.format64 p f, 33 ≤ b.toNat
  parse9 : ∀ f, (F.parse32 (fixFloatExp (F.format32 9 f))).isSome
  parse6 : ∀ f, (F.parse32 (fixFloatExp (F.format32 6 f))).isSome
  parse64 : ∀ f, (F.parse64 (F.format64 9 f)).isSome

/-- The number that is read back after writing `f` with `p` digits. -/
def back32 (F : FloatText) (p : Nat) (f : F32) : F32 := (F.parse32 (fixFloatExp (F.format32 p f))).getD 0
/-- The number that is read back after writing `f`. -/
def back64 (F : FloatText) (f : F64) : F64 := (F.parse64 (F.format64 9 f)).getD 0

theorem fixFloatExp_clean {s : Bytes} (h : Clean s) : Clean (fixFloatExp s) := by
  intro b hb
  unfold fixFloatExp at hb
  split at hb
  · exact h b hb
  · rename_i e _
    simp only at hb
    split at hb
    · simp only [List.mem_append, List.mem_replicate] at hb
      rcases hb with (hb | ⟨_, rfl⟩) | hb
      · exact h b (List.mem_of_mem_take hb)
      · decide
      · exact h b (List.mem_of_mem_drop hb)
    · exact h b hb

theorem fixFloatExp_ne_nil {s : Bytes} (h : s ≠ []) : fixFloatExp s ≠ [] := by
  unfold fixFloatExp
  split
  · exact h
  · rename_i e he
    simp only
    split
    · intro hn
      simp at hn
      omega
    · exact h

variable {F : FloatText}

theorem clean_float (hF : ReadableText F) (p : Nat) (f : F32) : Clean (encodeFloatPrec F f p) :=
  fixFloatExp_clean (hF.bytes32 p f)
theorem clean_float9 (hF : ReadableText F) (f : F32) : Clean (encodeFloat F f) := clean_float hF 9 f
theorem clean_double (hF : ReadableText F) (f : F64) : Clean (encodeDouble F f) := hF.bytes64 9 f

theorem parse_float (hF : ReadableText F) (f : F32) : F.parse32 (encodeFloat F f) = some (back32 F 9 f) := by
  have := hF.parse9 f
  rw [Option.isSome_iff_exists] at this
  obtain ⟨g, hg⟩ := this
  simp [encodeFloat, back32, hg]
theorem parse_seq (hF : ReadableText F) (f : F32) : F.parse32 (encodeFloatPrec F f 6) = some (back32 F 6 f) := by
  have := hF.parse6 f
  rw [Option.isSome_iff_exists] at this
  obtain ⟨g, hg⟩ := this
  simp [encodeFloatPrec, back32, hg]
theorem parse_double (hF : ReadableText F) (f : F64) : F.parse64 (encodeDouble F f) = some (back64 F f) := by
  have := hF.parse64 f
  rw [Option.isSome_iff_exists] at this
  obtain ⟨g, hg⟩ := this
  simp [encodeDouble, back64, hg]

/-! ## Components -/

theorem comp_f32 (hF : ReadableText F) (n : Bytes) (f : F32) :
    readComp F .f32 (rereadOf (leaf n (encodeFloat F f))) = .next (some (.f32 (back32 F 9 f))) := by
  simp only [readComp]
  rw [content_clean n (clean_float9 hF f), parse_float hF]; rfl

theorem comp_f32' (hF : ReadableText F) (n : Bytes) (f : F32) :
    readComp F .f32 (rereadOf ⟨{ startName := n, text := encodeFloat F f }, []⟩) =
      .next (some (.f32 (back32 F 9 f))) := by
  simp only [readComp]
  rw [content_clean' n (clean_float9 hF f), parse_float hF]; rfl

theorem parseInt_toInt {w : Nat} (hw : 0 < w) (n : BitVec w) : parseInt w (formatInt n.toInt) = (n.toInt, .none) := by
  have h1 := BitVec.le_toInt n
  have h2 := BitVec.toInt_lt (x := n)
  refine parseInt_formatInt hw ?_ ?_
  · simpa using h1
  · simpa using h2

theorem comp_i32 (n : Bytes) (x : BitVec 32) :
    readComp F .i32 (rereadOf (leaf n (formatInt x.toInt))) = .next (some (.i32 x)) := by
  simp only [readComp]
  rw [content_clean n (clean_int _), parseInt_toInt (by decide)]
  simp [intComp]

theorem comp_i16 (n : Bytes) (x : BitVec 16) :
    readComp F .i16 (rereadOf (leaf n (formatInt x.toInt))) = .next (some (.i16 x)) := by
  simp only [readComp]
  rw [content_clean n (clean_int _), parseInt_toInt (by decide)]
  simp [intComp]

theorem comp_u32 (n : Bytes) {x : Nat} (h : x < 2 ^ 31) :
    readComp F .i32 (rereadOf (leaf n (formatUint x))) = .next (some (.i32 (BitVec.ofNat 32 x))) := by
  simp only [readComp]
  rw [content_clean n (clean_uint _), parseInt_formatUint (by decide) h]
  simp [intComp]

theorem comp_tag (t : Tag) : readComp F .tag t = .next (some (.tag t)) := rfl

theorem flagBits_lt : ∀ (l : List Bool), flagBits l < 2 ^ l.length
  | [] => by simp [flagBits]
  | b :: l => by
    have := flagBits_lt l
    simp only [flagBits, List.length_cons, Nat.pow_succ]
    split <;> omega

/-! ## Sequences -/

theorem span_clean {s : Bytes} (h : Clean s) (c : Byte) (rest : Bytes) (hc : isSpace c = true) :
    (s ++ c :: rest).takeWhile (fun c => !isSpace c) = s ∧
    (s ++ c :: rest).dropWhile (fun c => !isSpace c) = c :: rest := by
  induction s with
  | nil => simp [hc]
  | cons b s ih =>
    have hb : isSpace b = false := by
      have := h b (by simp)
      rw [isSpace_eq, decide_eq_false_iff_not]
      unfold Spec.XmlSpace
      omega
    have := ih fun x hx => h x (by simp [hx])
    simp [hb, this]

theorem scan_one (hF : ReadableText F) (f : F32) (rest : Bytes) (hr : ∀ c t, rest = c :: t → isSpace c = false) :
    scanFloat F (seqFloat F f ++ rest) = some (back32 F 6 f, rest) := by
  obtain ⟨h1, h2⟩ := span_clean (clean_float hF 6 f) 32#8 rest (by decide)
  unfold scanFloat seqFloat
  rw [List.append_assoc, List.singleton_append, h1, h2]
  simp only [parse_seq hF]
  have : (32#8 :: rest).dropWhile isSpace = rest := by
    rw [List.dropWhile_cons_of_pos (by decide)]
    cases rest with
    | nil => rfl
    | cons c t => rw [List.dropWhile_cons_of_neg (by simp [hr c t rfl])]
  rw [this]

theorem seq_head (hF : ReadableText F) (f : F32) (rest : Bytes) : ∀ c t, seqFloat F f ++ rest = c :: t →
    isSpace c = false := by
  intro c t h
  have hne : encodeFloatPrec F f 6 ≠ [] := fixFloatExp_ne_nil (hF.nonempty32 6 f)
  cases he : encodeFloatPrec F f 6 with
  | nil => exact absurd he hne
  | cons x y =>
    unfold seqFloat at h
    rw [he] at h
    simp only [List.cons_append, List.cons.injEq] at h
    have := clean_float hF 6 f x (by rw [he]; simp)
    rw [← h.1, isSpace_eq, decide_eq_false_iff_not]
    unfold Spec.XmlSpace
    omega

/-- A keypoint as it is read back. -/
def backNumber (F : FloatText) (k : NumberKeypoint) : NumberKeypoint :=
  ⟨back32 F 6 k.time, back32 F 6 k.value, back32 F 6 k.envelope⟩
/-- A keypoint as it is read back. -/
def backColor (F : FloatText) (k : ColorKeypoint) : ColorKeypoint :=
  ⟨back32 F 6 k.time, ⟨back32 F 6 k.value.r, back32 F 6 k.value.g, back32 F 6 k.value.b⟩, back32 F 6 k.envelope⟩

theorem numbers_head (hF : ReadableText F) (ks : List NumberKeypoint) : ∀ c t, numbersText F ks = c :: t →
    isSpace c = false := by
  cases ks with
  | nil => intro c t h; cases h
  | cons k ks =>
    intro c t h
    simp only [numbersText, List.append_assoc] at h
    exact seq_head hF _ _ c t h

theorem colors_head (hF : ReadableText F) (ks : List ColorKeypoint) : ∀ c t, colorsText F ks = c :: t →
    isSpace c = false := by
  cases ks with
  | nil => intro c t h; cases h
  | cons k ks =>
    intro c t h
    simp only [colorsText, List.append_assoc] at h
    exact seq_head hF _ _ c t h

theorem seqFloat_ne_nil (f : F32) (rest : Bytes) : seqFloat F f ++ rest ≠ [] := by
  simp [seqFloat]

theorem scanNumbers_text (hF : ReadableText F) : ∀ (ks : List NumberKeypoint) (fuel : Nat),
    (numbersText F ks).length < fuel → scanNumbers F fuel (numbersText F ks) = some (ks.map (backNumber F))
  | [], fuel + 1, _ => rfl
  | k :: ks, fuel + 1, h => by
    have hlen : (numbersText F ks).length < fuel := by
      simp only [numbersText, seqFloat, List.length_append, List.length_singleton] at h
      omega
    have ih := scanNumbers_text hF ks fuel hlen
    have hne := seqFloat_ne_nil (F := F) k.time (seqFloat F k.value ++ (seqFloat F k.envelope ++ numbersText F ks))
    have e : numbersText F (k :: ks) = seqFloat F k.time ++ (seqFloat F k.value ++ (seqFloat F k.envelope ++
        numbersText F ks)) := by simp [numbersText]
    rw [e]
    have hs1 := scan_one hF k.time _ (seq_head hF k.value (seqFloat F k.envelope ++ numbersText F ks))
    have hs2 := scan_one hF k.value _ (seq_head hF k.envelope (numbersText F ks))
    have hs3 := scan_one hF k.envelope _ (numbers_head hF ks)
    generalize hX : seqFloat F k.time ++ (seqFloat F k.value ++ (seqFloat F k.envelope ++ numbersText F ks)) = X at *
    cases X with
    | nil => exact absurd rfl hne
    | cons x X => simp [scanNumbers, hs1, hs2, hs3, ih, backNumber]

theorem scanColors_text (hF : ReadableText F) : ∀ (ks : List ColorKeypoint) (fuel : Nat),
    (colorsText F ks).length < fuel → scanColors F fuel (colorsText F ks) = some (ks.map (backColor F))
  | [], fuel + 1, _ => rfl
  | k :: ks, fuel + 1, h => by
    have hlen : (colorsText F ks).length < fuel := by
      simp only [colorsText, seqFloat, List.length_append, List.length_singleton] at h
      omega
    have ih := scanColors_text hF ks fuel hlen
    have hne := seqFloat_ne_nil (F := F) k.time (seqFloat F k.value.r ++ (seqFloat F k.value.g ++
      (seqFloat F k.value.b ++ (seqFloat F k.envelope ++ colorsText F ks))))
    have e : colorsText F (k :: ks) = seqFloat F k.time ++ (seqFloat F k.value.r ++ (seqFloat F k.value.g ++
      (seqFloat F k.value.b ++ (seqFloat F k.envelope ++ colorsText F ks)))) := by simp [colorsText]
    rw [e]
    have hs1 := scan_one hF k.time _ (seq_head hF k.value.r (seqFloat F k.value.g ++
      (seqFloat F k.value.b ++ (seqFloat F k.envelope ++ colorsText F ks))))
    have hs2 := scan_one hF k.value.r _ (seq_head hF k.value.g
      (seqFloat F k.value.b ++ (seqFloat F k.envelope ++ colorsText F ks)))
    have hs3 := scan_one hF k.value.g _ (seq_head hF k.value.b (seqFloat F k.envelope ++ colorsText F ks))
    have hs4 := scan_one hF k.value.b _ (seq_head hF k.envelope (colorsText F ks))
    have hs5 := scan_one hF k.envelope _ (colors_head hF ks)
    generalize hX : seqFloat F k.time ++ (seqFloat F k.value.r ++ (seqFloat F k.value.g ++
      (seqFloat F k.value.b ++ (seqFloat F k.envelope ++ colorsText F ks)))) = X at *
    cases X with
    | nil => exact absurd rfl hne
    | cons x X => simp [scanColors, hs1, hs2, hs3, hs4, hs5, ih, backColor]

theorem seqFloat_no_cr (hF : ReadableText F) (f : F32) : 13#8 ∉ seqFloat F f := by
  intro h
  simp only [seqFloat, List.mem_append, List.mem_singleton] at h
  rcases h with h | h
  · exact (clean_float hF 6 f).no_cr h
  · exact absurd h (by decide)

theorem numbers_no_cr (hF : ReadableText F) : ∀ (ks : List NumberKeypoint), 13#8 ∉ numbersText F ks
  | [] => by simp [numbersText]
  | k :: ks => by simp [numbersText, seqFloat_no_cr hF, numbers_no_cr hF ks]
theorem colors_no_cr (hF : ReadableText F) : ∀ (ks : List ColorKeypoint), 13#8 ∉ colorsText F ks
  | [] => by simp [colorsText]
  | k :: ks => by simp [colorsText, seqFloat_no_cr hF, colors_no_cr hF ks]

/-! ## Hexadecimal digits -/

theorem hexDigit_lower : ∀ x : Fin 256,
    hexDigit (hexAt hexLower (BitVec.ofFin x >>> 4)) = some (x.val / 16) ∧
    hexDigit (hexAt hexLower (BitVec.ofFin x &&& 0x0F#8)) = some (x.val % 16) := by
  decide +kernel

theorem hexDecode_digits : ∀ (b : Bytes), hexDecode (hexDigits hexLower b) = some b
  | [] => rfl
  | x :: b => by
    have e : hexDigits hexLower (x :: b) = hexAt hexLower (x >>> 4) :: hexAt hexLower (x &&& 0x0F#8) ::
        hexDigits hexLower b := rfl
    obtain ⟨h1, h2⟩ := hexDigit_lower x.toFin
    have h1' : hexDigit (hexAt hexLower (x >>> 4)) = some (x.toFin.val / 16) := h1
    have h2' : hexDigit (hexAt hexLower (x &&& 0x0F#8)) = some (x.toFin.val % 16) := h2
    rw [e]
    simp only [hexDecode, h1', h2', hexDecode_digits b, Option.bind_eq_bind, Option.bind_some]
    congr 2
    rw [Nat.div_add_mod]
    simp

theorem clean_hex (b : Bytes) : Clean (hexDigits hexLower b) := by
  have aux : ∀ x : Fin 256, 33 ≤ (hexAt hexLower (BitVec.ofFin x >>> 4)).toNat ∧
    33 ≤ (hexAt hexLower (BitVec.ofFin x &&& 0x0F#8)).toNat := by decide +kernel
  intro c hc
  simp only [hexDigits, List.mem_flatMap, List.mem_cons, List.not_mem_nil, or_false] at hc
  obtain ⟨x, -, hx⟩ := hc
  obtain ⟨h1, h2⟩ := aux x.toFin
  rcases hx with rfl | rfl
  · exact h1
  · exact h2

/-! ## Values -/

section
variable {ρ σ : Type}

/-- The type of a value is neither Reference nor SharedString. -/
def Plainly (v : Value σ) : Prop := v.type ≠ .reference ∧ v.type ≠ .sharedString

theorem getValue_named (d : Bool) (n : Bytes) (t : Tag) (ty : Ty) :
    (getValue F d (rereadOf (named n t)) ty : Res (Option (Value σ))) = getValue F d (rereadOf t) ty := by
  obtain ⟨h, ts⟩ := t
  cases ty <;> rfl

theorem getProperty_named {d : Bool} {n : Bytes} {t : Tag} {ty : Ty}
    (hty : getCanonType t.head.startName = (ty, false)) :
    (getProperty F d (rereadOf (named n t)) : Res (PropRes σ)) =
      propValue F d (Spec.normNewlines n) ty false (rereadOf (named n t)) := by
  simp only [getProperty, attr_named, start_reread, start_named, hty]
  rfl

theorem propValue_value {d : Bool} {n : Bytes} {t : Tag} {ty : Ty} {v : Value σ} (hv : getValue F d t ty = .ok (some v))
    (hp : Plainly v) : propValue F d n ty false t = .ok (.value n v) := by
  unfold propValue
  simp only [hv]
  cases v <;> first
    | rfl
    | exact absurd rfl hp.1
    | exact absurd rfl hp.2

theorem propValue_none {d : Bool} {n : Bytes} {t : Tag} {ty : Ty} (hv : getValue (ρ := σ) F d t ty = .ok none) :
    propValue (ρ := σ) F d n ty false t = .ok .nothing := by
  unfold propValue
  simp only [hv]

/-- Three components as they are read back. -/
def back3 (F : FloatText) (v : Vector3) : Vector3 := ⟨back32 F 9 v.x, back32 F 9 v.y, back32 F 9 v.z⟩
/-- Two components as they are read back. -/
def back2 (F : FloatText) (v : Vector2) : Vector2 := ⟨back32 F 9 v.x, back32 F 9 v.y⟩
/-- A matrix as it is read back. -/
def backM (F : FloatText) (r : Matrix) : Matrix :=
  ⟨back32 F 9 r.m0, back32 F 9 r.m1, back32 F 9 r.m2, back32 F 9 r.m3, back32 F 9 r.m4, back32 F 9 r.m5,
    back32 F 9 r.m6, back32 F 9 r.m7, back32 F 9 r.m8⟩

theorem comps_xyz (hF : ReadableText F) (v : Vector3) : Comps F xyzComps (reread (xyzTags F v))
    [(str "X", .f32 (back32 F 9 v.x)), (str "Y", .f32 (back32 F 9 v.y)), (str "Z", .f32 (back32 F 9 v.z))] :=
  .cons rfl (comp_f32 hF _ _) (.cons rfl (comp_f32 hF _ _) (.cons rfl (comp_f32 hF _ _) .nil))

theorem comps_xy (hF : ReadableText F) (v : Vector2) : Comps F xyComps (reread (xyTags F v))
    [(str "X", .f32 (back32 F 9 v.x)), (str "Y", .f32 (back32 F 9 v.y))] :=
  .cons rfl (comp_f32 hF _ _) (.cons rfl (comp_f32 hF _ _) .nil)

theorem comps_cframe (hF : ReadableText F) (p : Vector3) (r : Matrix) :
    Comps F cframeComps (reread (cframeTags F p r))
    [(str "X", .f32 (back32 F 9 p.x)), (str "Y", .f32 (back32 F 9 p.y)), (str "Z", .f32 (back32 F 9 p.z)),
      (str "R00", .f32 (back32 F 9 r.m0)), (str "R01", .f32 (back32 F 9 r.m1)), (str "R02", .f32 (back32 F 9 r.m2)),
      (str "R10", .f32 (back32 F 9 r.m3)), (str "R11", .f32 (back32 F 9 r.m4)), (str "R12", .f32 (back32 F 9 r.m5)),
      (str "R20", .f32 (back32 F 9 r.m6)), (str "R21", .f32 (back32 F 9 r.m7)), (str "R22", .f32 (back32 F 9 r.m8))] :=
  .cons rfl (comp_f32 hF _ _) (.cons rfl (comp_f32 hF _ _) (.cons rfl (comp_f32 hF _ _)
  (.cons rfl (comp_f32 hF _ _) (.cons rfl (comp_f32 hF _ _) (.cons rfl (comp_f32 hF _ _)
  (.cons rfl (comp_f32 hF _ _) (.cons rfl (comp_f32 hF _ _) (.cons rfl (comp_f32 hF _ _)
  (.cons rfl (comp_f32 hF _ _) (.cons rfl (comp_f32 hF _ _) (.cons rfl (comp_f32 hF _ _) .nil)))))))))))

theorem compValue_exact {d : Bool} {c : List (Bytes × Comp)} {zero : Value σ} {mk : CompVals → Value σ} {t : Tag}
    {vs : CompVals} (hnd : (c.map Prod.fst).Nodup) (h : Comps F c t.tags vs) :
    compValue F d c zero mk t = some (mk vs) := by
  simp [compValue, getFrom_exact F hnd h]

theorem pairValue_exact {d : Bool} {n1 n2 : Bytes} {c : List (Bytes × Comp)} {zero : Value σ}
    {mk : CompVals → CompVals → Value σ} {h : Head} {a b : Tag} {vs ws : CompVals} (hn : n1 ≠ n2)
    (ha : a.head.startName = n1) (hb : b.head.startName = n2)
    (hnd : (c.map Prod.fst).Nodup) (h1 : Comps F c a.tags vs) (h2 : Comps F c b.tags ws) :
    pairValue F d n1 n2 c zero mk ⟨h, [a, b]⟩ = some (mk vs ws) := by
  have hg : getFrom F [(n1, .tag), (n2, .tag)] ⟨h, [a, b]⟩ = (true, [(n1, .tag a), (n2, .tag b)]) :=
    getFrom_exact F (by simp [hn]) (.cons ha rfl (.cons hb rfl .nil))
  simp [pairValue, hg, CompVals.tag, Map.get?, hn, getFrom_exact F hnd h1, getFrom_exact F hnd h2]

/-- The value that is read back for a value, as property of an instance; `none` if there is none. References and
shared strings are not considered here. -/
def backValue (F : FloatText) (discard : Bool) : Value ρ → Option (Value σ)
  | .string s => some (.string (Spec.normText s))
  | .binaryString s => some (.binaryString s)
  | .protectedString s => some (.protectedString (Spec.normText s))
  | .content s => some (.content (Spec.normText s))
  | .bool b => some (.bool b)
  | .int n => some (.int n)
  | .float f => some (.float (back32 F 9 f))
  | .double f => some (.double (back64 F f))
  | .udim u => some (.udim ⟨back32 F 9 u.scale, u.offset⟩)
  | .udim2 x y => some (.udim2 ⟨back32 F 9 x.scale, x.offset⟩ ⟨back32 F 9 y.scale, y.offset⟩)
  | .ray o _ => some (.ray (back3 F o) (back3 F o))
  | .faces r t b l bo f => some (.faces r t b l bo f)
  | .axes x y z => some (.axes x y z)
  | .brickColor n => some (.int (if n.toNat < 2 ^ 31 then n else 0x7fffffff#32))
  | .color3 c => some (.color3 ⟨back32 F 9 c.r, back32 F 9 c.g, back32 F 9 c.b⟩)
  | .vector2 v => some (.vector2 (back2 F v))
  | .vector3 v => some (.vector3 (back3 F v))
  | .cframe p r => some (.cframe (back3 F p) (backM F r))
  | .token n => some (.token (if n.toNat < 2 ^ 31 then n else 0x7fffffff#32))
  | .reference _ => some (.reference none)
  | .vector3int16 x y z => some (.vector3int16 x y z)
  | .vector2int16 x y => some (.vector2int16 x y)
  | .numberSequence ks => some (.numberSequence (ks.map (backNumber F)))
  | .colorSequence ks => some (.colorSequence (ks.map (backColor F)))
  | .numberRange a b => some (.numberRange (back32 F 6 a) (back32 F 6 b))
  | .rect a b => some (.rect (back2 F a) (back2 F b))
  | .physicalProperties c d f e fw ew =>
    some (if c then .physicalProperties true (back32 F 9 d) (back32 F 9 f) (back32 F 9 e) (back32 F 9 fw) (back32 F 9 ew)
      else .physicalProperties false 0 0 0 0 0)
  | .color3uint8 r g b => some (.color3uint8 r g b)
  | .int64 n => some (.int64 n)
  | .sharedString s => some (.sharedString s)
  | .optional t o =>
    match o with
    | some (.cframe p r) => if t = .cframe then some (.optional t (some (.cframe (back3 F p) (backM F r)))) else none
    | _ => some (.optional (if t = .optional then .invalid else t) none)
  | .uniqueId r t i => some (.uniqueId r t i)
  | .font fam w st c =>
    if w.toNat < 2 ^ 15 then
      if st.toNat ≤ 1 then some (.font (Spec.normText fam) w st (Spec.normText c))
      else if discard then none else some (.font [] 0 0 [])
    else some (.font (Spec.normText fam) 0x7fff#16 0 (Spec.normText c))

end

end Rbxlx

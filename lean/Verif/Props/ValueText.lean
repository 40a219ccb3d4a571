import Verif.Rbxfile.Text
import Verif.Spec.ValueText
import Verif.Rbxl.DumpLemmas
import Verif.Props.Names
import Verif.Rbxfile.ValueEq
/-!
# C85: the text of a value
-/
namespace Props
open Go Spec Rbxfile Rbxl Rbxlx

/-! ## Lemmas -/

theorem same_float (f g : F32) : Same (shown32 f = shown32 g) (floatText f) (floatText g) :=
  (Same.word (short_word _ _ layout_f _ _) (short_word _ _ layout_f _ _)).imp (short32_inj layout_f)

theorem same_double (f g : F64) : Same (shown64 f = shown64 g) (short64 layoutF f) (short64 layoutF g) :=
  (Same.word (short_word _ _ layout_f _ _) (short_word _ _ layout_f _ _)).imp (short64_inj layout_f)

theorem same_last {P : Prop} {a b : Bytes} (h : Same P a b) : Same P (joinstr [a]) (joinstr [b]) := by
  simpa [joinstr] using h

theorem same_next {P Q : Prop} {a b : Bytes} {r s : List Bytes} (sep : Bytes) (h : Same P a b) (h' : Same Q (joinstr r) (joinstr s))
    (hs : Ends sep := by exact ends_lit _) :
    Same (P ∧ Q) (joinstr (a :: sep :: r)) (joinstr (b :: sep :: s)) := by
  have e : ∀ (a : Bytes) (r : List Bytes), joinstr (a :: sep :: r) = a ++ (sep ++ joinstr r) := fun _ _ => rfl
  rw [e, e]
  exact h.seq (fun _ => Same.lit _ h') (Opens.lit hs _) (Opens.lit hs _)

theorem same_open {P : Prop} {r s : List Bytes} (l : Bytes) (h : Same P (joinstr r) (joinstr s)) :
    Same P (joinstr (l :: r)) (joinstr (l :: s)) := Same.lit l h

theorem same_lit (l : Bytes) : Same True (joinstr [l]) (joinstr [l]) := Same.refl _

theorem same_udim (u v : UDim) : Same (seenUDim u = seenUDim v) u.text v.text := by
  refine (same_next _ (same_float _ _) (same_last (same_bits _ _))).imp ?_
  rintro ⟨h1, h2⟩
  unfold seenUDim
  rw [h1, h2]

theorem same_vector3 (u v : Vector3) : Same (seenVector3 u = seenVector3 v) u.text v.text := by
  refine (same_next _ (same_float _ _) (same_next _ (same_float _ _) (same_last (same_float _ _)))).imp ?_
  rintro ⟨h1, h2, h3⟩
  unfold seenVector3
  rw [h1, h2, h3]

theorem same_pair {P Q : Prop} {a b c d : Bytes} (h : Same P a b) (h' : Same Q c d) :
    Same (P ∧ Q) (joinstr [str "{", a, str "}, {", c, str "}"]) (joinstr [str "{", b, str "}, {", d, str "}"]) := by
  refine same_open _ (same_next _ h ?_)
  exact (same_next (r := []) (s := []) _ h' (Same.refl _)).imp And.left

/-- Lists of numbers of the same length. -/
theorem same_joined : ∀ (fs gs : List F32), fs.length = gs.length →
    Same (fs.map shown32 = gs.map shown32) (List.intercalate (str ", ") (fs.map floatText)) (List.intercalate (str ", ") (gs.map floatText))
  | [], [], _ => (Same.refl _).imp fun _ => rfl
  | [f], [g], _ => by
    have := same_float f g
    simp only [List.intercalate, List.map_cons, List.map_nil, List.intersperse, List.flatten_cons, List.flatten_nil, List.append_nil]
    exact this.imp fun h => by rw [h]
  | f :: f' :: fs, g :: g' :: gs, hl => by
    have ih := same_joined (f' :: fs) (g' :: gs) (by simpa using hl)
    have e : ∀ (f f' : F32) (fs : List F32), List.intercalate (str ", ") ((f :: f' :: fs).map floatText) =
        floatText f ++ (str ", " ++ List.intercalate (str ", ") ((f' :: fs).map floatText)) := fun _ _ _ => rfl
    rw [e, e]
    refine ((same_float f g).seq (fun _ => Same.lit _ ih) (Opens.lit (ends_lit _) _) (Opens.lit (ends_lit _) _)).imp ?_
    rintro ⟨h1, h2⟩
    rw [List.map_cons, List.map_cons (l := g' :: gs), h1, h2]

/-- A blank follows every keypoint. -/
theorem keypoints_unique {α β : Type} {text : α → Bytes} {seen : α → β} (h : ∀ a b, Same (seen a = seen b) (text a) (text b))
    (hs : ∀ a, ∃ c t, text a = c :: t ∧ ¬ Stop c) : ∀ (ks ls : List α),
    Same (ks.map seen = ls.map seen) (keypointsText (ks.map text)) (keypointsText (ls.map text))
  | [], [] => (Same.refl _).imp fun _ => rfl
  | [], l :: ls => by
    intro r s hr _ he
    obtain ⟨c, t, hc, hn⟩ := hs l
    obtain ⟨d, r', rfl, hd⟩ := hr
    simp only [keypointsText, List.map_nil, List.flatMap_nil, List.nil_append, List.map_cons, List.flatMap_cons, hc, List.cons_append,
      List.cons.injEq] at he
    exact absurd (he.1 ▸ hd) hn
  | l :: ls, [] => by
    intro r s _ hr he
    obtain ⟨c, t, hc, hn⟩ := hs l
    obtain ⟨d, r', rfl, hd⟩ := hr
    simp only [keypointsText, List.map_nil, List.flatMap_nil, List.nil_append, List.map_cons, List.flatMap_cons, hc, List.cons_append,
      List.cons.injEq] at he
    exact absurd (he.1 ▸ hd) hn
  | k :: ks, l :: ls => by
    have e : ∀ (k : α) (ks : List α), keypointsText ((k :: ks).map text) = text k ++ ([32#8] ++ keypointsText (ks.map text)) := by
      intro k ks
      simp [keypointsText]
    rw [e, e]
    have hb : Ends [32#8] := ⟨_, _, rfl, by decide⟩
    refine ((h k l).seq (fun _ => Same.lit _ (keypoints_unique h hs ks ls)) (Opens.lit hb _) (Opens.lit hb _)).imp ?_
    rintro ⟨h1, h2⟩
    rw [List.map_cons, List.map_cons, h1, h2]

theorem float_starts (f : F32) (r : Bytes) : ∃ c t, floatText f ++ r = c :: t ∧ ¬ Stop c := by
  rcases h : floatText f with _ | ⟨c, t⟩
  · have := short32_parse layout_f f
    rw [show short32 layoutF f = [] from h] at this
    revert this
    rw [show goFloat.parse32 [] = none by decide +kernel]
    nofun
  · exact ⟨c, t ++ r, rfl, short_word _ _ layout_f _ _ c (by show c ∈ floatText f; rw [h]; simp)⟩

theorem nan32 {f : F32} (h : F32.isNaN f = true) (l : Bytes → Int → Bytes) : short32 l f = str "NaN" := by
  rw [isNaN_iff, decide_eq_true_eq] at h
  unfold short32 FloatFmt.short
  rw [if_pos (by rw [show fmt32.inf = 0x7f800000 by decide]; exact h)]

theorem nan64 {f : F64} (h : isNaN64 f = true) (l : Bytes → Int → Bytes) : short64 l f = str "NaN" := by
  rw [isNaN64, decide_eq_true_eq] at h
  unfold short64 FloatFmt.short
  rw [if_pos (by rw [show fmt64.inf = 0x7ff0000000000000 by decide]; exact h)]

theorem floatText_shown (f : F32) : floatText (shown32 f) = floatText f := by
  unfold shown32
  split
  · rename_i h
    rw [floatText, floatText, nan32 h, nan32 (by decide)]
  · rfl

theorem short64_shown (f : F64) : short64 layoutF (shown64 f) = short64 layoutF f := by
  unfold shown64
  split
  · rename_i h
    rw [nan64 h, nan64 (by decide)]
  · rfl

theorem known_or (w : BitVec 16) : w ∉ knownWeights → fontWeightString w = str "<invalid>" := by
  intro h
  simp only [knownWeights, List.mem_cons, List.not_mem_nil, or_false, not_or] at h
  obtain ⟨h1, h2, h3, h4, h5, h6, h7, h8, h9⟩ := h
  unfold fontWeightString
  repeat' rw [if_neg (by assumption)]

theorem style_or (s : Byte) : ¬ (s = 0 ∨ s = 1) → fontStyleString s = str "<invalid>" := by
  intro h
  rw [not_or] at h
  unfold fontStyleString
  obtain ⟨h1, h2⟩ := h
  repeat' rw [if_neg (by assumption)]

/-- The text depends on what is shown only. -/
theorem seen_text {ρ : Type} (refOf : ρ → Bytes) (v : Value ρ) : (seenValue v).text refOf = v.text refOf := by
  cases v
  case physicalProperties custom a b c d e =>
    cases custom
    · simp only [seenValue, Value.text, Bool.false_eq_true, if_false]
    · simp only [seenValue, if_true, Value.text, floatText_shown]
  case font family weight style c =>
    simp only [seenValue, Value.text]
    congr 3
    · congr 1
      · split
        · rfl
        · rw [known_or weight ‹_›]; decide +kernel
      · congr 2
        split
        · rfl
        · rw [style_or style ‹_›]; decide +kernel
  case numberSequence ks =>
    simp only [seenValue, Value.text, List.map_map]
    congr 2
    funext k
    simp only [Function.comp, NumberKeypoint.text, floatText_shown]
  case colorSequence ks =>
    simp only [seenValue, Value.text, List.map_map]
    congr 2
    funext k
    simp only [Function.comp, ColorKeypoint.text, seenColor3, floatText_shown]
  all_goals simp only [seenValue, Value.text, UDim.text, Vector3.text, Matrix.entries, seenUDim, seenVector3, seenVector2, seenColor3,
    seenMatrix, List.map_cons, List.map_nil, floatText_shown, short64_shown]

/-- Whether the word is somewhere in the text. -/
def hasWord (w t : Bytes) : Bool := t.tails.any fun s => w.isPrefixOf s

theorem faces_flags : ∀ a b c d e f : Bool,
    [hasWord (str "Right"), hasWord (str "Top"), hasWord (str "Back"), hasWord (str "Left"), hasWord (str "Bottom"), hasWord (str "Front")].map
      (· ((Value.faces a b c d e f : Value Unit).text (fun _ => []))) = [a, b, c, d, e, f] := by
  decide +kernel

theorem faces_unique {ρ : Type} (refOf : ρ → Bytes) (a b c d e f a' b' c' d' e' f' : Bool)
    (h : (Value.faces a b c d e f).text refOf = (Value.faces a' b' c' d' e' f').text refOf) :
    a = a' ∧ b = b' ∧ c = c' ∧ d = d' ∧ e = e' ∧ f = f' := by
  have h1 := faces_flags a b c d e f
  rw [show (Value.faces a b c d e f : Value Unit).text (fun _ => []) = (Value.faces a' b' c' d' e' f' : Value Unit).text (fun _ => []) from h,
    faces_flags] at h1
  simpa [Eq.comm] using h1

theorem axes_unique : ∀ a b c a' b' c' : Bool,
    (Value.axes a b c : Value Unit).text (fun _ => []) = (Value.axes a' b' c' : Value Unit).text (fun _ => []) →
    a = a' ∧ b = b' ∧ c = c' := by
  decide +kernel

theorem text_same {P : Prop} {t u : Bytes} (h : Same P t u) (he : t = u) : P :=
  (h [10#8] [10#8] ⟨_, _, rfl, by decide⟩ ⟨_, _, rfl, by decide⟩ (by rw [he])).1

/-- The words of a font can be read from the end. -/
theorem font_unique {f g : Bytes} {w x : BitVec 16} {s t : Byte}
    (h : f ++ (str ", Weight = " ++ (fontWeightString w ++ (str ", Style = " ++ (fontStyleString s ++ str " }")))) =
      g ++ (str ", Weight = " ++ (fontWeightString x ++ (str ", Style = " ++ (fontStyleString t ++ str " }"))))) :
    f = g ∧ fontWeightString w = fontWeightString x ∧ fontStyleString s = fontStyleString t := by
  have hw : ∀ w : BitVec 16, fontWeightString w ∈ (knownWeights.map fontWeightString) ++ [str "<invalid>"] := by
    intro w
    by_cases h : w ∈ knownWeights
    · exact List.mem_append_left _ (List.mem_map_of_mem h)
    · rw [known_or w h]; simp
  have hs : ∀ s : Byte, fontStyleString s ∈ [str "Normal", str "Italic", str "<invalid>"] := by
    intro s
    unfold fontStyleString
    repeat' split
    all_goals simp
  have key : ∀ a ∈ (knownWeights.map fontWeightString) ++ [str "<invalid>"], ∀ b ∈ [str "Normal", str "Italic", str "<invalid>"],
      ∀ a' ∈ (knownWeights.map fontWeightString) ++ [str "<invalid>"], ∀ b' ∈ [str "Normal", str "Italic", str "<invalid>"],
      ((str ", Weight = " ++ (a ++ (str ", Style = " ++ (b ++ str " }")))).reverse <+: (str ", Weight = " ++ (a' ++ (str ", Style = " ++ (b' ++ str " }")))).reverse) →
      a = a' ∧ b = b' := by decide +kernel
  have h' := congrArg List.reverse h
  rw [List.reverse_append, List.reverse_append (as := g)] at h'
  have fin : ∀ {w x : BitVec 16} {s t : Byte}, (str ", Weight = " ++ (fontWeightString w ++ (str ", Style = " ++ (fontStyleString s ++ str " }")))).reverse <+:
      (str ", Weight = " ++ (fontWeightString x ++ (str ", Style = " ++ (fontStyleString t ++ str " }")))).reverse →
      fontWeightString w = fontWeightString x ∧ fontStyleString s = fontStyleString t :=
    fun hp => key _ (hw _) _ (hs _) _ (hw _) _ (hs _) hp
  have : fontWeightString w = fontWeightString x ∧ fontStyleString s = fontStyleString t := by
    rcases List.prefix_or_prefix_of_prefix ⟨_, h'⟩ (List.prefix_append _ _) with hp | hp
    · exact fin hp
    · obtain ⟨h1, h2⟩ := fin hp
      exact ⟨h1.symm, h2.symm⟩
  rw [this.1, this.2] at h
  exact ⟨List.append_cancel_right h, this⟩

theorem weight_name {w : BitVec 16} (hw : w ∈ knownWeights) : fontWeightFromString (fontWeightString w) = (w, true) :=
  (C36_font_weight _ _).2 ⟨hw, rfl⟩

theorem weight_unique {w x : BitVec 16} (h : fontWeightString w = fontWeightString x) :
    (if w ∈ knownWeights then w else 0) = if x ∈ knownWeights then x else 0 := by
  have inv : ∀ w : BitVec 16, w ∈ knownWeights → fontWeightString w ≠ str "<invalid>" := by
    intro w hw he
    have := weight_name hw
    rw [he] at this
    have h2 := C36_invalid.2.2.2
    rw [this] at h2
    cases h2
  by_cases hw : w ∈ knownWeights <;> by_cases hx : x ∈ knownWeights
  · rw [if_pos hw, if_pos hx]
    have := weight_name hw
    rw [h, weight_name hx] at this
    exact (congrArg Prod.fst this).symm
  · rw [known_or x hx] at h; exact absurd h (inv w hw)
  · rw [known_or w hw] at h; exact absurd h.symm (inv x hx)
  · rw [if_neg hw, if_neg hx]

theorem style_unique {w x : Byte} (h : fontStyleString w = fontStyleString x) :
    (if w = 0 ∨ w = 1 then w else 2) = if x = 0 ∨ x = 1 then x else 2 := by
  have name : ∀ w : Byte, w = 0 ∨ w = 1 → fontStyleFromString (fontStyleString w) = (w, true) :=
    fun w hw => (C36_font_style _ _).1.2 ⟨hw, rfl⟩
  have inv : ∀ w : Byte, w = 0 ∨ w = 1 → fontStyleString w ≠ str "<invalid>" := by
    intro w hw he
    have := name w hw
    rw [he] at this
    have h2 := C36_invalid.2.2.1
    rw [this] at h2
    cases h2
  by_cases hw : w = 0 ∨ w = 1 <;> by_cases hx : x = 0 ∨ x = 1
  · rw [if_pos hw, if_pos hx]
    have := name w hw
    rw [h, name x hx] at this
    exact (congrArg Prod.fst this).symm
  · rw [style_or x hx] at h; exact absurd h (inv w hw)
  · rw [style_or w hw] at h; exact absurd h.symm (inv x hx)
  · rw [if_neg hw, if_neg hx]

/-! ## C85 -/

/-- C85: two values of the same type, which is not that of references or optionals, have the same text if and only if they are
the same apart from what texts do not show: the bits of a NaN, the other fields of physical properties that are not custom, the
cached face of a font and which of the unknown weights or styles it has. -/
theorem C85_text_partial {ρ : Type} (refOf : ρ → Bytes) (v w : Value ρ) (ht : v.type = w.type) (hr : v.type ≠ .reference)
    (ho : v.type ≠ .optional) : v.text refOf = w.text refOf ↔ seenValue v = seenValue w := by
  refine ⟨fun h => ?_, fun h => by rw [← seen_text refOf v, h, seen_text]⟩
  cases v <;> cases w <;> first | (cases ht; done) | skip
  all_goals try simp only [Value.text] at h
  case string.string => rw [h]
  case binaryString.binaryString => rw [h]
  case protectedString.protectedString => rw [h]
  case content.content => rw [h]
  case sharedString.sharedString => rw [h]
  case bool.bool a b => rw [text_same (same_bool a b) h]
  case int.int a b => rw [text_same (same_bits a b) h]
  case int64.int64 a b => rw [text_same (same_bits a b) h]
  case token.token a b => rw [text_same (same_ubits a b) h]
  case brickColor.brickColor a b => rw [text_same (same_ubits a b) h]
  case float.float a b => simp only [seenValue]; rw [text_same (same_float a b) h]
  case double.double a b => simp only [seenValue]; rw [text_same (same_double a b) h]
  case udim.udim a b => simp only [seenValue]; rw [text_same (same_udim a b) h]
  case vector3.vector3 a b => simp only [seenValue]; rw [text_same (same_vector3 a b) h]
  case udim2.udim2 a b c d =>
    obtain ⟨h1, h2⟩ := text_same (same_pair (same_udim a c) (same_udim b d)) h
    simp only [seenValue]; rw [h1, h2]
  case ray.ray a b c d =>
    obtain ⟨h1, h2⟩ := text_same (same_pair (same_vector3 a c) (same_vector3 b d)) h
    simp only [seenValue]; rw [h1, h2]
  case faces.faces a b c d e f a' b' c' d' e' f' =>
    obtain ⟨rfl, rfl, rfl, rfl, rfl, rfl⟩ := faces_unique refOf a b c d e f a' b' c' d' e' f' h
    rfl
  case axes.axes a b c a' b' c' =>
    obtain ⟨rfl, rfl, rfl⟩ := axes_unique a b c a' b' c' h
    rfl
  case color3.color3 a b =>
    obtain ⟨h1, h2, h3⟩ := text_same (same_next _ (same_float _ _) (same_next _ (same_float _ _) (same_last (same_float _ _)))) h
    simp only [seenValue, seenColor3]; rw [h1, h2, h3]
  case vector2.vector2 a b =>
    obtain ⟨h1, h2⟩ := text_same (same_next _ (same_float _ _) (same_last (same_float _ _))) h
    simp only [seenValue, seenVector2]; rw [h1, h2]
  case numberRange.numberRange a b c d =>
    obtain ⟨h1, h2⟩ := text_same (same_next _ (same_float _ _) (same_last (same_float _ _))) h
    simp only [seenValue]; rw [h1, h2]
  case rect.rect a b c d =>
    obtain ⟨h1, h2, h3, h4⟩ := text_same (same_next _ (same_float _ _) (same_next _ (same_float _ _) (same_next _ (same_float _ _)
      (same_last (same_float _ _))))) h
    simp only [seenValue, seenVector2]; rw [h1, h2, h3, h4]
  case vector3int16.vector3int16 =>
    obtain ⟨h1, h2, h3⟩ := text_same (same_next _ (same_bits _ _) (same_next _ (same_bits _ _) (same_last (same_bits _ _)))) h
    rw [h1, h2, h3]
  case vector2int16.vector2int16 =>
    obtain ⟨h1, h2⟩ := text_same (same_next _ (same_bits _ _) (same_last (same_bits _ _))) h
    rw [h1, h2]
  case color3uint8.color3uint8 =>
    obtain ⟨h1, h2, h3⟩ := text_same (same_next _ (same_ubits _ _) (same_next _ (same_ubits _ _) (same_last (same_ubits _ _)))) h
    rw [h1, h2, h3]
  case uniqueId.uniqueId =>
    obtain ⟨rfl, rfl, rfl⟩ := C35_text_injective _ _ _ _ _ _ h
    rfl
  case cframe.cframe p r q s =>
    have := text_same (same_joined (p.x :: p.y :: p.z :: r.entries) (q.x :: q.y :: q.z :: s.entries) rfl) h
    simp only [Matrix.entries, List.map_cons, List.map_nil, List.cons.injEq, and_true] at this
    obtain ⟨h1, h2, h3, h4, h5, h6, h7, h8, h9, h10, h11, h12⟩ := this
    simp only [seenValue, seenVector3, seenMatrix]
    rw [h1, h2, h3, h4, h5, h6, h7, h8, h9, h10, h11, h12]
  case numberSequence.numberSequence ks ls =>
    refine congrArg Value.numberSequence (text_same (keypoints_unique (text := NumberKeypoint.text) (seen := fun k => (⟨shown32 k.time, shown32 k.value, shown32 k.envelope⟩ : NumberKeypoint)) (fun a b => ?_) (fun a => float_starts _ _) ks ls) h)
    refine (same_next _ (same_float _ _) (same_next _ (same_float _ _) (same_last (same_float _ _)))).imp ?_
    rintro ⟨h1, h2, h3⟩
    rw [h1, h2, h3]
  case colorSequence.colorSequence ks ls =>
    refine congrArg Value.colorSequence (text_same (keypoints_unique (text := ColorKeypoint.text) (seen := fun k => (⟨shown32 k.time, seenColor3 k.value, shown32 k.envelope⟩ : ColorKeypoint)) (fun a b => ?_) (fun a => float_starts _ _) ks ls) h)
    refine (same_next _ (same_float _ _) (same_next _ (same_float _ _) (same_next _ (same_float _ _) (same_next _ (same_float _ _)
      (same_last (same_float _ _)))))).imp ?_
    rintro ⟨h1, h2, h3, h4, h5⟩
    simp only [seenColor3]
    rw [h1, h2, h3, h4, h5]
  case physicalProperties.physicalProperties k a b c d e k' a' b' c' d' e' =>
    have no : ∀ f r, floatText f ++ r ≠ str "nil" := by
      intro f r he
      obtain ⟨x, t, hx, -⟩ := float_starts f []
      rw [List.append_nil] at hx
      have hh := short_head fmt32 9 layout_f (decide (2 ^ 31 ≤ f.toNat)) (f.toNat % 2 ^ 31)
      rw [show fmt32.short 9 layoutF (decide (2 ^ 31 ≤ f.toNat)) (f.toNat % 2 ^ 31) = floatText f from rfl, hx] at hh
      rw [hx, show str "nil" = [110#8, 105#8, 108#8] by decide +kernel, List.cons_append, List.cons.injEq] at he
      exact hh (by rw [he.1]; rfl)
    cases k <;> cases k' <;> simp only [Bool.false_eq_true, if_false, if_true] at h
    · rfl
    · exact absurd h.symm (no a' (joinstr [str ", ", floatText b', str ", ", floatText c', str ", ", floatText d', str ", ", floatText e']))
    · exact absurd h (no a (joinstr [str ", ", floatText b, str ", ", floatText c, str ", ", floatText d, str ", ", floatText e]))
    · obtain ⟨h1, h2, h3, h4, h5⟩ := text_same (same_next _ (same_float _ _) (same_next _ (same_float _ _) (same_next _ (same_float _ _)
        (same_next _ (same_float _ _) (same_last (same_float _ _)))))) h
      simp only [seenValue, if_true]
      rw [h1, h2, h3, h4, h5]
  case font.font =>
    obtain ⟨h1, h2, h3⟩ := font_unique (List.append_cancel_left h)
    simp only [seenValue]
    rw [h1, weight_unique h2, style_unique h3]
  case reference.reference => exact absurd rfl hr
  case optional.optional => exact absurd rfl ho

/-- C85: `strconv.ParseFloat` reads the text of a float as the float; all NaNs are read as one. -/
theorem C85_float_reads {ρ : Type} (refOf : ρ → Bytes) (f : F32) (g : F64) :
    goFloat.parse32 ((Value.float f).text refOf) = some (shown32 f) ∧ goFloat.parse64 ((Value.double g).text refOf) = some (shown64 g) := by
  simp only [Value.text, floatText]
  rw [short32_parse layout_f, short64_parse layout_f]
  unfold shown32 shown64 isNaN64
  rw [isNaN_iff]
  simp only [decide_eq_true_eq]
  exact ⟨trivial, trivial⟩

/-- C85: the text of an optional with a value is the text of the value; so two optionals of the same type that have values (neither
references nor optionals again) have the same text only if the values are shown as the same. -/
theorem C85_some {ρ : Type} (refOf : ρ → Bytes) (t : Ty) (v w : Value ρ) (hv : v.type = t) (hw : w.type = t) (hr : t ≠ .reference)
    (ho : t ≠ .optional) : (Value.optional t (some v)).text refOf = (Value.optional t (some w)).text refOf ↔ seenValue v = seenValue w := by
  simp only [Value.text]
  exact C85_text_partial refOf v w (hv.trans hw.symm) (hv ▸ hr) (hv ▸ ho)

/-- C85: if the instances have distinct reference strings other than "<nil>", distinct references have distinct texts. -/
theorem C85_reference {ρ : Type} (refOf : ρ → Bytes) (hi : ∀ p q, refOf p = refOf q → p = q) (hn : ∀ p, refOf p ≠ str "<nil>")
    (p q : Option ρ) (h : (Value.reference p).text refOf = (Value.reference q).text refOf) : p = q := by
  cases p <;> cases q <;> simp only [Value.text] at h
  · rfl
  · exact absurd h.symm (hn _)
  · exact absurd h (hn _)
  · rw [hi _ _ h]

/-- C85: different values of the same type with the same text: a nil reference and one to an instance with the reference string
"<nil>"; no value and the string "nil"; fonts with different cached faces; fonts with different weights, none of them known;
physical properties that are not custom. -/
theorem C85_text_fails :
    (Value.reference none : Value Nat).text (fun _ => str "<nil>") = (Value.reference (some 1) : Value Nat).text (fun _ => str "<nil>") ∧
    (Value.optional .string none : Value Nat).text (fun (_ : Nat) => []) = (Value.optional .string (some (.string (str "nil")))).text (fun (_ : Nat) => []) ∧
    (Value.font [] 400 0 [1] : Value Nat).text (fun (_ : Nat) => []) = (Value.font [] 400 0 [2]).text (fun (_ : Nat) => []) ∧
    (Value.font [] 401 0 [] : Value Nat).text (fun (_ : Nat) => []) = (Value.font [] 402 0 []).text (fun (_ : Nat) => []) ∧
    (Value.physicalProperties false 1 0 0 0 0 : Value Nat).text (fun (_ : Nat) => []) = (Value.physicalProperties false 2 0 0 0 0).text (fun (_ : Nat) => []) := by
  decide +kernel

/-- Texts of some values: 1.5, -3; 0.1, the smallest and the largest float32; a font with a family that looks like the rest. -/
example :
    (Value.udim2 ⟨0x3fc00000, 0xfffffffd⟩ ⟨0x3dcccccd, 0⟩ : Value Nat).text (fun (_ : Nat) => []) = str "{1.5, -3}, {0.1, 0}" ∧
    (Value.numberRange 1 0x7f7fffff : Value Nat).text (fun (_ : Nat) => []) =
      str "0.000000000000000000000000000000000000000000001 340282350000000000000000000000000000000" ∧
    (Value.font (str "a, Weight = Bold") 700 1 [] : Value Nat).text (fun (_ : Nat) => []) =
      str "Font { Family = a, Weight = Bold, Weight = Bold, Style = Italic }" ∧
    (Value.faces true false true false false true : Value Nat).text (fun (_ : Nat) => []) = str "Front, Back, Right" ∧
    (Value.numberSequence [⟨0, 0x3f800000, 0⟩, ⟨0x3f800000, 0xbf800000, 0x7fc00001⟩] : Value Nat).text (fun (_ : Nat) => []) = str "0 1 0 1 -1 NaN " := by
  decide +kernel

/-- Two different NaNs are shown as the same; other values are not. -/
example : seenValue (.float 0x7fc00001 : Value Nat) = seenValue (.float 0xffc00000) ∧
    seenValue (.float 0 : Value Nat) ≠ seenValue (.float 0x80000000) := by
  decide +kernel

end Props

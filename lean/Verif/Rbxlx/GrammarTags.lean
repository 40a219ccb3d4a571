import Verif.Rbxlx.GrammarText
import Verif.Rbxlx.DocLemmas
/-!
# The start tags, comments and sections that the XML parser reads and their grammar
-/
namespace Rbxlx
open Go Spec

/-! ## Whitespace -/

theorem blank_all {ws : Bytes} (h : Blank ws) : ∀ b ∈ ws, isSpace b = true := fun b hb => (isSpace_iff b).2 (h b hb)

theorem not_space {b : Byte} (h : ¬ XmlSpace b) : isSpace b = false := by
  rw [← Bool.not_eq_true, isSpace_iff]; exact h

/-- Whitespace is skipped up to something else. -/
theorem skip_blank {ws : Bytes} (h : Blank ws) {c : Byte} {s : Bytes} (hc : ¬ XmlSpace c) :
    skipSpace (ws ++ c :: s) = c :: s := by
  rw [skipSpace_append (blank_all h), skipSpace_cons (not_space hc)]

/-- What is skipped is whitespace, and what follows is not. -/
theorem skip_sound (s : Bytes) :
    ∃ ws, Blank ws ∧ s = ws ++ skipSpace s ∧ ∀ b t, skipSpace s = b :: t → ¬ XmlSpace b := by
  refine ⟨s.takeWhile isSpace, fun b hb => (isSpace_iff b).1 (takeWhile_all _ _ b hb), split_while _ s, ?_⟩
  intro b t h
  rw [← isSpace_iff, dropWhile_first _ _ h]
  simp

theorem not_space_of_name {b : Byte} (h : TagByte b) : ¬ XmlSpace b := by
  unfold XmlSpace; unfold TagByte at h; omega

theorem not_space_lt : ¬ XmlSpace 60#8 := by decide
theorem not_space_gt : ¬ XmlSpace 62#8 := by decide
theorem not_space_slash : ¬ XmlSpace 47#8 := by decide
theorem not_space_eq : ¬ XmlSpace 61#8 := by decide
theorem not_space_quote : ¬ XmlSpace 34#8 := by decide

/-! ## Names -/

/-- What is read as a name is one. -/
theorem readName_sound {t : NameType} {s n r : Bytes} (h : readName t s = .ok (n, r)) :
    s = n ++ r ∧ (∀ b ∈ n, isNameByte t b = true) ∧ ∃ c u, r = c :: u ∧ isNameByte t c = false := by
  have hs := split_while (isNameByte t) s
  unfold readName at h
  split at h
  · cases h
  · rename_i b rest hd
    cases h
    rw [hd] at hs
    exact ⟨hs, fun b hb => takeWhile_all _ _ b hb, b, rest, rfl, dropWhile_first _ _ hd⟩

/-! ## The rest of a start tag -/

theorem ignoreStartTag_ok {junk : Bytes} (h : 62#8 ∉ junk) (s : Bytes) :
    ignoreStartTag (junk ++ 62#8 :: s) = .ok s := by
  obtain ⟨-, h2⟩ := takeWhile_stop (fun b => decide (b ≠ 62#8)) (n := junk) (c := 62#8) (s := s)
    (List.all_eq_true.2 (fun b hb => by
      have : b ≠ 62#8 := by rintro rfl; exact h hb
      simpa using this)) (by simp)
  unfold ignoreStartTag
  rw [h2]

theorem ignoreStartTag_sound {s r : Bytes} (h : ignoreStartTag s = .ok r) :
    ∃ junk, 62#8 ∉ junk ∧ s = junk ++ 62#8 :: r := by
  have hs := split_while (fun b : Byte => decide (b ≠ 62#8)) s
  unfold ignoreStartTag at h
  split at h
  · cases h
  · rename_i b rest hd
    cases h
    have hb := dropWhile_first _ _ hd
    simp only [ne_eq, decide_not, Bool.not_eq_false', decide_eq_true_eq] at hb
    rw [hd, hb] at hs
    refine ⟨_, ?_, hs⟩
    intro hm
    have := takeWhile_all (fun b : Byte => decide (b ≠ 62#8)) s _ hm
    simp at this

/-! ## Comments -/

theorem readComment_ok : ∀ (t s : Bytes), ¬ str "-->" <:+: t → readComment (t ++ (str "-->" ++ s)) = .ok (t, s)
  | [], s, _ => by
    have : str "-->" = [45#8, 45#8, 62#8] := by decide
    rw [this]
    simp [readComment]
  | b :: e, s, h => by
    have e3 : str "-->" = [45#8, 45#8, 62#8] := by decide
    have ih := readComment_ok e s (infix_tail h)
    rw [List.cons_append]
    unfold readComment
    split
    · rename_i heq; cases heq
    · rename_i rest heq
      exfalso
      rw [e3] at heq h
      obtain ⟨rfl, h1⟩ := List.cons.inj heq
      match e, h1 with
      | [], h1 => simp at h1
      | [x], h1 => simp at h1
      | x :: y :: e', h1 =>
        simp only [List.cons_append, List.cons.injEq] at h1
        obtain ⟨rfl, rfl, -⟩ := h1
        exact h ⟨[], e', rfl⟩
    · rename_i heq
      obtain ⟨rfl, rfl⟩ := List.cons.inj heq
      simp only [ih, Res.ok_bind]

theorem readComment_sound : ∀ (s t r : Bytes), readComment s = .ok (t, r) →
    ¬ str "-->" <:+: t ∧ s = t ++ (str "-->" ++ r) := by
  have e3 : str "-->" = [45#8, 45#8, 62#8] := by decide
  intro s
  induction s with
  | nil => intro t r h; simp [readComment] at h
  | cons b s ih =>
    intro t r h
    unfold readComment at h
    split at h
    · cases h
    · rename_i rest heq
      cases h
      rw [heq, e3]
      exact ⟨by rintro ⟨a, c, h⟩; simp at h, rfl⟩
    · rename_i b' s' hnot heq
      cases heq
      obtain ⟨⟨t', r'⟩, h1, h2⟩ := Res.bind_eq_ok.1 h
      cases h2
      obtain ⟨i1, i2⟩ := ih t' _ h1
      refine ⟨fun hin => ?_, by rw [i2]; rfl⟩
      rcases List.infix_cons_iff.1 hin with hin | hin
      · obtain ⟨u, hu⟩ := hin
        rw [e3] at hu
        simp only [List.cons_append, List.cons.injEq, List.nil_append] at hu
        obtain ⟨rfl, hu⟩ := hu
        exact hnot (u ++ (str "-->" ++ r)) rfl (by rw [i2, ← hu]; rfl)
      · exact i1 hin

/-! ## Attributes -/

/-- What the loop over the attributes does after the name of an attribute. -/
def afterName (fuel : Nat) (tag : Head) (name s : Bytes) : Res (StartState × Head × Bytes) :=
  match skipSpace s with
  | 61#8 :: s =>
    match skipSpace s with
    | 34#8 :: s => do
      let (value, s) ← readText .quoted s
      readAttrs fuel { tag with attr := tag.attr ++ [(name, value)] } s
    | _ => .err (.other "unquoted or missing attribute value in element")
  | _ :: s => do
    let s ← ignoreStartTag s
    .ok (.ignored, { tag with attr := tag.attr ++ [(name, [])] }, s)
  | [] => .err (.other "unexpected EOF")

theorem readAttrs_name {ws n : Bytes} (hws : Blank ws) (hn : AttrNameOk n) {c : Byte} {t : Bytes} (hc : ¬ AttrByte c)
    (fuel : Nat) (tag : Head) :
    readAttrs (fuel + 1) tag (ws ++ n ++ c :: t) = afterName fuel tag n (c :: t) := by
  have hall : n.all (isNameByte .attr) = true :=
    List.all_eq_true.2 (fun b hb => (isNameByte_attr b).2 (hn.bytes b hb))
  have hrn := readName_ok (t := .attr) (s := t) hall (isNameByte_attr_false.2 hc)
  cases n with
  | nil => exact absurd rfl hn.nonempty
  | cons d u =>
    have hd := hn.bytes d (by simp)
    have hsp : ¬ XmlSpace d := not_space_of_name hd.1
    rw [List.append_assoc, List.cons_append] 
    rw [readAttrs, skip_blank hws hsp]
    split
    · rename_i heq; cases heq
    · rename_i heq; exact absurd (by rw [(List.cons.inj heq).1]) (hn.first u)
    · rename_i heq
      have := (List.cons.inj heq).1
      subst this
      exact absurd rfl hd.1.2.2
    · rw [List.cons_append] at hrn
      simp only [hrn, Res.ok_bind]
      rw [if_neg (by simp)]
      rfl

/-- The head of a tag once the rest of its start tag is read. -/
def headAfter (tag : Head) (attrs : List (Bytes × Bytes)) (closed : Bool) : Head :=
  { tag with attr := tag.attr ++ attrs, empty := tag.empty || closed }

/-- The outcome of reading a start tag. -/
def stateOf (good : Bool) : StartState := if good then .tag else .ignored

theorem attr_name_gt : ¬ AttrByte 62#8 := by unfold AttrByte TagByte; decide
theorem attr_name_eq : ¬ AttrByte 61#8 := by unfold AttrByte TagByte; decide

theorem not_attr_space {b : Byte} (h : XmlSpace b) : ¬ AttrByte b := fun h' => not_space_of_name h'.1 h

/-- The byte after a name is not one of a name. -/
theorem after_name {ws : Bytes} (hws : Blank ws) {b : Byte} (hb : ws = [] → ¬ AttrByte b) (s : Bytes) :
    ∃ c t, ws ++ b :: s = c :: t ∧ ¬ AttrByte c := by
  cases ws with
  | nil => exact ⟨b, s, rfl, hb rfl⟩
  | cons w ws => exact ⟨w, ws ++ b :: s, rfl, not_attr_space (hws w (by simp))⟩

/-- Attributes and the end of a start tag are read as what they mean. -/
theorem readAttrs_ok (e : Ending) (he : e.Ok) (s : Bytes) : ∀ (as : List AttrSyntax) (fuel : Nat) (tag : Head),
    (∀ a ∈ as, a.Ok) → as.length < fuel →
    readAttrs fuel tag (attrsSource as e ++ s) =
      .ok (stateOf e.good, headAfter tag (as.map AttrSyntax.meaning ++ e.extra) e.isClosed, s)
  | [], fuel, tag, _, hf => by
    obtain ⟨fuel, rfl⟩ : ∃ k, fuel = k + 1 := ⟨fuel - 1, by omega⟩
    have g1 : str ">" = [62#8] := by decide
    have g2 : str "/" = [47#8] := by decide
    have g3 : str "/>" = [47#8, 62#8] := by decide
    simp only [attrsSource, List.flatMap_nil, List.nil_append, List.map_nil]
    cases e with
    | opened ws =>
      simp only [Ending.source, g1, List.append_assoc, List.singleton_append]
      rw [readAttrs, skip_blank he not_space_gt]
      simp [stateOf, headAfter, Ending.good, Ending.extra, Ending.isClosed]
    | closed ws =>
      simp only [Ending.source, g3, List.append_assoc, List.cons_append, List.nil_append]
      rw [readAttrs, skip_blank he not_space_slash]
      simp [stateOf, headAfter, Ending.good, Ending.extra, Ending.isClosed]
    | badSlash ws b junk =>
      obtain ⟨h1, h2, h3⟩ := he
      simp only [Ending.source, g1, g2, List.append_assoc, List.cons_append, List.nil_append]
      rw [readAttrs, skip_blank h1 not_space_slash]
      simp only
      rw [ignoreStartTag_ok h3]
      simp [stateOf, headAfter, Ending.good, Ending.extra, Ending.isClosed]
    | badName ws b junk =>
      obtain ⟨h1, h2, h3, h4, h5⟩ := he
      simp only [Ending.source, g1, List.append_assoc, List.cons_append, List.nil_append]
      rw [readAttrs, skip_blank h1 h3]
      have hr := readName_ok (t := .attr) (n := []) (c := b) (s := junk ++ 62#8 :: s) rfl (isNameByte_attr_false.2 h2)
      rw [List.nil_append] at hr
      split
      · rename_i heq; cases heq
      · rename_i heq
        have := (List.cons.inj heq).1
        subst this
        exact absurd (by unfold AttrByte TagByte; decide) h2
      · rename_i heq; exact absurd (List.cons.inj heq).1 h4
      · rw [hr]
        simp only [Res.ok_bind, if_true]
        have hi := ignoreStartTag_ok (junk := b :: junk) (by simp [h5, Ne.symm h4]) s
        rw [List.cons_append] at hi
        rw [hi]
        simp [stateOf, headAfter, Ending.good, Ending.extra, Ending.isClosed]
    | badAttr ws n ws2 b junk =>
      obtain ⟨h1, h2, h3, h4, h5, h6, h7⟩ := he
      simp only [Ending.source, g1, List.append_assoc, List.cons_append, List.nil_append]
      obtain ⟨c, t, hct, hc⟩ := after_name h3 h6 (junk ++ 62#8 :: s)
      rw [hct, ← List.append_assoc, readAttrs_name h1 h2 hc, ← hct, afterName, skip_blank h3 h5]
      split
      · rename_i heq; exact absurd (List.cons.inj heq).1 h4
      · rename_i heq
        obtain ⟨rfl, rfl⟩ := List.cons.inj heq
        rw [ignoreStartTag_ok h7]
        simp [stateOf, headAfter, Ending.good, Ending.extra, Ending.isClosed]
      · rename_i heq; cases heq
  | a :: as, fuel, tag, ha, hf => by
    obtain ⟨fuel, rfl⟩ : ∃ k, fuel = k + 1 := ⟨fuel - 1, by omega⟩
    obtain ⟨h1, h2, h3, h4, h5⟩ := ha a (by simp)
    have g1 : str "=" = [61#8] := by decide
    have g2 : str "\"" = [34#8] := by decide
    have hsrc : attrsSource (a :: as) e ++ s =
        a.before ++ a.name ++ (a.beforeEq ++ 61#8 :: (a.afterEq ++ 34#8 ::
          (textSource a.value ++ 34#8 :: (attrsSource as e ++ s)))) := by
      simp [attrsSource, AttrSyntax.source, g1, g2]
    obtain ⟨c, t, hct, hc⟩ := after_name h3 (fun _ => attr_name_eq)
      (a.afterEq ++ 34#8 :: (textSource a.value ++ 34#8 :: (attrsSource as e ++ s)))
    rw [hsrc, hct, readAttrs_name h1 h2 hc, ← hct, afterName, skip_blank h3 not_space_eq]
    simp only
    rw [skip_blank h4 not_space_quote]
    simp only
    rw [readValue_piece h5]
    simp only [Res.ok_bind]
    rw [readAttrs_ok e he s as fuel _ (fun a' ha' => ha a' (by simp [ha'])) (by simp at hf; omega)]
    simp [headAfter, AttrSyntax.meaning]

/-- What is read as the rest of a start tag is one. -/
theorem readAttrs_sound : ∀ (fuel : Nat) (tag : Head) (s : Bytes) (st : StartState) (h : Head) (r : Bytes),
    readAttrs fuel tag s = .ok (st, h, r) →
    ∃ as e, (∀ a ∈ as, AttrSyntax.Ok a) ∧ e.Ok ∧ s = attrsSource as e ++ r ∧ st = stateOf e.good ∧
      h = headAfter tag (as.map AttrSyntax.meaning ++ e.extra) e.isClosed
  | 0, _, _, _, _, _, hr => by simp [readAttrs] at hr
  | fuel + 1, tag, s, st, h, r, hr => by
    have g1 : str ">" = [62#8] := by decide
    have g2 : str "/" = [47#8] := by decide
    have g3 : str "/>" = [47#8, 62#8] := by decide
    have g4 : str "=" = [61#8] := by decide
    have g5 : str "\"" = [34#8] := by decide
    obtain ⟨ws, hws, hs, hsp⟩ := skip_sound s
    rw [readAttrs] at hr
    split at hr
    · cases hr
    · rename_i s1 hs1
      rw [hs1] at hs
      split at hr
      · cases hr
      · rename_i s2
        cases hr
        exact ⟨[], .closed ws, by simp, hws, by simp [attrsSource, Ending.source, g3, hs], rfl,
          by simp [headAfter, Ending.extra, Ending.isClosed]⟩
      · rename_i b s2 hb
        obtain ⟨s3, h1, h2⟩ := Res.bind_eq_ok.1 hr
        cases h2
        obtain ⟨junk, hj, rfl⟩ := ignoreStartTag_sound h1
        exact ⟨[], .badSlash ws b junk, by simp, ⟨hws, hb, hj⟩,
          by simp [attrsSource, Ending.source, g1, g2, hs], rfl, by simp [headAfter, Ending.extra, Ending.isClosed]⟩
    · rename_i s1 hs1
      rw [hs1] at hs
      cases hr
      exact ⟨[], .opened ws, by simp, hws, by simp [attrsSource, Ending.source, g1, hs], rfl,
        by simp [headAfter, Ending.extra, Ending.isClosed]⟩
    · rename_i hne h47 h62
      obtain ⟨⟨n, s1⟩, h1, h2⟩ := Res.bind_eq_ok.1 hr
      obtain ⟨e1, e2, c, u, rfl, e3⟩ := readName_sound h1
      simp only at h2
      split at h2
      · rename_i hn
        subst hn
        obtain ⟨s3, h3, h4⟩ := Res.bind_eq_ok.1 h2
        cases h4
        obtain ⟨junk, hj, hj2⟩ := ignoreStartTag_sound h3
        rw [List.nil_append] at e1
        cases junk with
        | nil =>
          exact absurd (e1.trans hj2) (h62 _)
        | cons b junk =>
          obtain ⟨rfl, rfl⟩ := List.cons.inj hj2
          rw [e1] at hs
          refine ⟨[], .badName ws c junk, by simp, ⟨hws, isNameByte_attr_false.1 e3, hsp _ _ e1, ?_, ?_⟩,
            by simp [attrsSource, Ending.source, g1, hs], rfl, by simp [headAfter, Ending.extra, Ending.isClosed]⟩
          · rintro rfl; simp at hj
          · intro hm; exact hj (by simp [hm])
      · rename_i hn
        have hname : AttrNameOk n := ⟨hn, fun b hb => (isNameByte_attr b).1 (e2 b hb), by
          rintro t rfl
          exact h47 _ e1⟩
        have hc := isNameByte_attr_false.1 e3
        obtain ⟨ws2, hws2, hs2, hsp2⟩ := skip_sound (c :: u)
        rw [e1] at hs
        split at h2
        · rename_i s2 heq
          rw [heq] at hs2
          obtain ⟨ws3, hws3, hs3, hsp3⟩ := skip_sound s2
          split at h2
          · rename_i s3 heq3
            rw [heq3] at hs3
            obtain ⟨⟨v, s4⟩, h3, h4⟩ := Res.bind_eq_ok.1 h2
            obtain ⟨ps, p1, p2, p3⟩ := readValue_sound h3
            obtain ⟨as, e, i1, i2, i3, i4, i5⟩ := readAttrs_sound fuel _ s4 st h r h4
            refine ⟨⟨ws, n, ws2, ws3, ps⟩ :: as, e, ?_, i2, ?_, i4, ?_⟩
            · intro a ha
              rcases List.mem_cons.1 ha with rfl | ha
              · exact ⟨hws, hname, hws2, hws3, p1⟩
              · exact i1 a ha
            · rw [hs, hs2, hs3, p2, i3]
              simp [attrsSource, AttrSyntax.source, g4, g5]
            · rw [i5, p3]
              simp [headAfter, AttrSyntax.meaning]
          · cases h2
        · rename_i b s2 hb heq
          obtain ⟨s3, h3, h4⟩ := Res.bind_eq_ok.1 h2
          cases h4
          obtain ⟨junk, hj, rfl⟩ := ignoreStartTag_sound h3
          rw [heq] at hs2
          refine ⟨[], .badAttr ws n ws2 b junk, by simp, ⟨hws, hname, hws2, hb, hsp2 _ _ heq, ?_,
            hj⟩, by rw [hs, hs2]; simp [attrsSource, Ending.source, g1], rfl,
            by simp [headAfter, Ending.extra, Ending.isClosed]⟩
          rintro rfl
          rw [List.nil_append] at hs2
          rw [← (List.cons.inj hs2).1]
          exact hc
        · cases h2

end Rbxlx

import Verif.Rbxlx.TextLemmas
/-!
# Reading back a written document
-/
namespace Rbxlx
open Go Rbxfile

/-- The attributes as they are read back. -/
def attrsBack : List (Bytes × Bytes) → List (Bytes × Bytes)
  | [] => []
  | (name, value) :: rest =>
    (if checkName .attr name then [(name, textBack false false value)] else []) ++ attrsBack rest

/-- The fields of a tag that is written with an end tag, as they are read back. -/
def headBack (h : Head) : Head where
  startName := h.startName
  endName := writtenEnd h
  attr := attrsBack h.attr
  cdata := h.cdata.map (textBack false false)
  text := textBack true false h.text

/-- The tag that is read back from a tag with the sub-tags `kids` (already read back); none if it is
ignored when writing. -/
def oneBack (h : Head) (kids : List Tag) : List Tag :=
  if h.comment then [⟨{ comment := true, text := escapeString true h.text }, []⟩]
  else if !checkName .tag h.startName then []
  else if h.empty then [⟨{ startName := h.startName, attr := attrsBack h.attr, empty := true }, []⟩]
  else [⟨headBack h, kids⟩]

mutual
/-- The tags that are read back. -/
def tagsBack : List Tag → List Tag
  | [] => []
  | t :: rest => tagBack t ++ tagsBack rest
/-- The tag that is read back, if any. -/
def tagBack : Tag → List Tag
  | ⟨h, ts⟩ => oneBack h (tagsBack ts)
end

/-- The first byte of a name is not one of the given bytes. -/
def FirstNot (bad : List Byte) (name : Bytes) : Prop := ∀ c t, name = c :: t → c ∉ bad

/-- What is required of a tag to be read back: the name is not taken for an end tag, a comment or a
CDATA section; an empty tag has an attribute; a CDATA section does not contain its end. -/
structure HeadWF (h : Head) : Prop where
  name : FirstNot [47#8, 33#8] h.startName
  attr : ∀ a ∈ h.attr, FirstNot [47#8] a.1
  empty : h.empty = true → ∃ a ∈ h.attr, checkName .attr a.1 = true
  cdata : h.empty = false → ∀ c, h.cdata = some c → NoCDataEnd c

mutual
/-- All tags, except comments and tags that are ignored when writing, meet the requirements. -/
def TagsWF : List Tag → Prop
  | [] => True
  | t :: rest => TagWF t ∧ TagsWF rest
/-- The tag, except if it is a comment or ignored when writing, meets the requirements. -/
def TagWF : Tag → Prop
  | ⟨h, ts⟩ => h.comment = false → checkName .tag h.startName = true → HeadWF h ∧ TagsWF ts
end

theorem checkName_all {t : NameType} {n : Bytes} (h : checkName t n = true) :
    n ≠ [] ∧ n.all (isNameByte t) = true := by
  simpa [checkName] using h

theorem isNameByte_range {t : NameType} {c : Byte} (h : isNameByte t c = true) :
    33 ≤ c.toNat ∧ c ≠ 62#8 := by
  simp only [isNameByte, Bool.and_eq_true, decide_eq_true_eq] at h
  exact ⟨h.1.1.1, h.1.2⟩

theorem isSpace_false_of_ge {c : Byte} (h : 33 ≤ c.toNat) : isSpace c = false := by
  rw [← Bool.not_eq_true, isSpace_iff]
  unfold Spec.XmlSpace
  omega

/-! ## Start tags -/

/-- The end of a start tag: `>` or `/>`. -/
def StartEnd (e : Bool) (tail s : Bytes) : Prop :=
  (e = false ∧ tail = 62#8 :: s) ∨ (e = true ∧ tail = 47#8 :: 62#8 :: s)

theorem readAttrs_end {e : Bool} {tail s : Bytes} (h : StartEnd e tail s) (fuel : Nat) (tag : Head) :
    readAttrs (fuel + 1) tag tail = .ok (.tag, { tag with empty := tag.empty || e }, s) := by
  rcases h with ⟨rfl, rfl⟩ | ⟨rfl, rfl⟩
  · rw [readAttrs, skipSpace_cons (by decide)]
    simp
  · rw [readAttrs, skipSpace_cons (by decide)]
    simp

theorem readAttrs_one {n : Bytes} (hn : checkName .attr n = true) (h47 : FirstNot [47#8] n) (v s : Bytes)
    (fuel : Nat) (tag : Head) :
    readAttrs (fuel + 1) tag ([32#8] ++ n ++ [61#8, 34#8] ++ escapeString false v ++ [34#8] ++ s) =
      readAttrs fuel { tag with attr := tag.attr ++ [(n, textBack false false v)] } s := by
  obtain ⟨hne, hall⟩ := checkName_all hn
  have e : [32#8] ++ n ++ [61#8, 34#8] ++ escapeString false v ++ [34#8] ++ s =
      [32#8] ++ (n ++ 61#8 :: (34#8 :: (escapeString false v ++ 34#8 :: s))) := by simp
  rw [e, readAttrs, skipSpace_append (by intro b hb; simp at hb; subst hb; decide)]
  have hrn := readName_ok (t := .attr) (n := n) (c := 61#8)
    (s := 34#8 :: (escapeString false v ++ 34#8 :: s)) hall (by decide)
  cases n with
  | nil => exact absurd rfl hne
  | cons c t =>
    simp only [List.all_cons, Bool.and_eq_true] at hall
    obtain ⟨hc1, hc2⟩ := isNameByte_range hall.1
    have hc3 : c ≠ 47#8 := by
      have := h47 c t rfl
      simpa using this
    simp only [List.cons_append] at hrn ⊢
    rw [skipSpace_cons (isSpace_false_of_ge hc1)]
    split
    · rename_i heq; cases heq
    · rename_i heq; exact absurd (List.cons.inj heq).1 hc3
    · rename_i heq; exact absurd (List.cons.inj heq).1 hc2
    · simp only [hrn, Res.ok_bind]
      rw [if_neg (by simp), skipSpace_cons (by decide)]
      simp only
      rw [skipSpace_cons (by decide)]
      simp only [readText_quoted, Res.ok_bind]

theorem readAttrs_write {e : Bool} {tail s : Bytes} (h : StartEnd e tail s) :
    ∀ (attr : List (Bytes × Bytes)) (fuel : Nat) (tag : Head),
      (writeAttrs attr ++ tail).length < fuel → (∀ a ∈ attr, FirstNot [47#8] a.1) →
      readAttrs fuel tag (writeAttrs attr ++ tail) =
        .ok (.tag, { tag with empty := tag.empty || e, attr := tag.attr ++ attrsBack attr }, s)
  | [], fuel, tag, hf, _ => by
    obtain ⟨fuel, rfl⟩ : ∃ k, fuel = k + 1 := ⟨fuel - 1, by omega⟩
    simp only [writeAttrs, List.nil_append, readAttrs_end h, attrsBack, List.append_nil]
  | (n, v) :: rest, fuel, tag, hf, hw => by
    have hw' : ∀ a ∈ rest, FirstNot [47#8] a.1 := fun a ha => hw a (by simp [ha])
    simp only [writeAttrs, attrsBack] at hf ⊢
    by_cases hn : checkName .attr n = true
    · simp only [hn, if_true] at hf ⊢
      obtain ⟨fuel, rfl⟩ : ∃ k, fuel = k + 1 := ⟨fuel - 1, by omega⟩
      rw [List.append_assoc, readAttrs_one hn (hw (n, v) (by simp)),
        readAttrs_write h rest fuel _ (by simp only [List.length_append, List.length_cons] at hf ⊢; omega) hw']
      simp
    · simp only [hn, if_false, List.nil_append, Bool.false_eq_true] at hf ⊢
      exact readAttrs_write h rest fuel tag hf hw'

theorem writeAttrs_head : ∀ (attr : List (Bytes × Bytes)),
    (writeAttrs attr = [] ∧ ∀ a ∈ attr, checkName .attr a.1 = false) ∨ ∃ t, writeAttrs attr = 32#8 :: t
  | [] => .inl ⟨rfl, by simp⟩
  | (n, v) :: rest => by
    simp only [writeAttrs]
    by_cases hn : checkName .attr n = true
    · refine .inr ⟨n ++ [61#8, 34#8] ++ escapeString false v ++ [34#8] ++ writeAttrs rest, ?_⟩
      simp [hn]
    · simp only [hn, if_false, List.nil_append, Bool.false_eq_true]
      rcases writeAttrs_head rest with ⟨h1, h2⟩ | h
      · exact .inl ⟨h1, by simpa [hn] using h2⟩
      · exact .inr h

theorem readStartTag_write {h : Head} (hn : checkName .tag h.startName = true) (hw : HeadWF h)
    {tail s : Bytes} (ht : StartEnd h.empty tail s) :
    readStartTag (60#8 :: h.startName ++ writeAttrs h.attr ++ tail) =
      .ok (.tag, { startName := h.startName, attr := attrsBack h.attr, empty := h.empty }, s) := by
  obtain ⟨hne, hall⟩ := checkName_all hn
  have hrest : ∃ c t, writeAttrs h.attr ++ tail = c :: t ∧ isNameByte .tag c = false := by
    rcases writeAttrs_head h.attr with ⟨h1, h2⟩ | ⟨t, h1⟩
    · rw [h1]
      rcases ht with ⟨he, rfl⟩ | ⟨he, rfl⟩
      · exact ⟨62#8, s, rfl, by decide⟩
      · obtain ⟨a, ha, hc⟩ := hw.empty he
        rw [h2 a ha] at hc; cases hc
    · rw [h1]; exact ⟨32#8, _, rfl, by decide⟩
  obtain ⟨c, t, hct, hcn⟩ := hrest
  have hrn := readName_ok (t := .tag) (s := t) hall hcn
  rw [← hct] at hrn
  have hname := hw.name
  have hra := readAttrs_write ht h.attr ((writeAttrs h.attr ++ tail).length + 1)
    { startName := h.startName } (Nat.lt_succ_self _) hw.attr
  rw [List.append_assoc]
  cases hs : h.startName with
  | nil => exact absurd hs hne
  | cons d u =>
    rw [hs] at hrn hra hname
    have hd := hname d u rfl
    simp only [List.mem_cons, List.not_mem_nil, or_false, not_or] at hd
    simp only [List.cons_append, readStartTag] at hrn ⊢
    split
    · rename_i heq; cases heq
    · rename_i heq; exact absurd (List.cons.inj heq).1 hd.1
    · rename_i heq; exact absurd (List.cons.inj heq).1 hd.2
    · simp only [hrn, Res.ok_bind]
      rw [if_neg (by simp), hra]
      simp

theorem readComment_write : ∀ (e s : Bytes), 62#8 ∉ e → readComment (e ++ (str "-->" ++ s)) = .ok (e, s)
  | [], s, _ => by
    have : str "-->" = [45#8, 45#8, 62#8] := by decide
    rw [this]
    simp [readComment]
  | b :: e, s, h => by
    have ih := readComment_write e s (by intro hc; exact h (by simp [hc]))
    have e3 : str "-->" = [45#8, 45#8, 62#8] := by decide
    rw [List.cons_append]
    unfold readComment
    split
    · rename_i heq; cases heq
    · rename_i rest heq
      exfalso
      rw [e3] at heq
      obtain ⟨rfl, h1⟩ := List.cons.inj heq
      match e, h1 with
      | [], h1 => simp at h1
      | [x], h1 => simp at h1
      | x :: y :: e', h1 =>
        simp only [List.cons_append, List.cons.injEq] at h1
        exact h (by simp [h1.2.1])
    · rename_i heq
      obtain ⟨rfl, rfl⟩ := List.cons.inj heq
      simp only [ih, Res.ok_bind]

theorem escapeString_bytes : ∀ (lead : Bool) (s : Bytes) (c : Byte), c ∈ escapeString lead s →
    c ≠ 62#8 ∧ c ≠ 60#8
  | _, [], c, h => by simp [escapeString] at h
  | lead, b :: s, c, h => by
    have hnum : ∀ b : Byte, c ∈ numbered b → c ≠ 62#8 ∧ c ≠ 60#8 := by
      intro b hb
      rw [numbered_eq] at hb
      simp only [List.mem_cons, List.mem_append] at hb
      have : c = 38#8 ∨ c = 35#8 ∨ c ∈ formatUint b.toNat ∨ c = 59#8 := by
        rcases hb with h | (h | h) | h
        · exact .inl h
        · exact .inr (.inl h)
        · exact .inr (.inr (.inl h))
        · simp at h; exact .inr (.inr (.inr h))
      rcases this with rfl | rfl | h | rfl
      · decide
      · decide
      · have := formatUint_digits _ c h
        constructor <;> (rintro rfl; simp at this)
      · decide
    simp only [escapeString] at h
    split at h
    · rcases List.mem_append.1 h with h | h
      · exact hnum b h
      · exact escapeString_bytes true s c h
    · rcases List.mem_append.1 h with h | h
      · simp only [escapeByte] at h
        split at h
        · exact (by decide : ∀ c ∈ str "&quot;", c ≠ 62#8 ∧ c ≠ 60#8) c h
        split at h
        · exact (by decide : ∀ c ∈ str "&apos;", c ≠ 62#8 ∧ c ≠ 60#8) c h
        split at h
        · exact (by decide : ∀ c ∈ str "&amp;", c ≠ 62#8 ∧ c ≠ 60#8) c h
        split at h
        · exact (by decide : ∀ c ∈ str "&lt;", c ≠ 62#8 ∧ c ≠ 60#8) c h
        split at h
        · exact (by decide : ∀ c ∈ str "&gt;", c ≠ 62#8 ∧ c ≠ 60#8) c h
        split at h
        · rename_i h1 h2 _
          simp only [List.mem_singleton] at h
          subst h
          exact ⟨h2, h1⟩
        · exact hnum b h
      · exact escapeString_bytes false s c h

/-! ## Tags -/

/-- The text begins with a tag, not with a CDATA section. -/
def TagStart (y : Bytes) : Prop := ∃ t, y = 60#8 :: t ∧ cdataOpen.isPrefixOf y = false

theorem cdataOpen_eq : cdataOpen = [60#8, 33#8, 91#8, 67#8, 68#8, 65#8, 84#8, 65#8, 91#8] := by decide

theorem TagStart.of_second {c : Byte} {t : Bytes} (h : c ≠ 33#8) : TagStart (60#8 :: c :: t) :=
  ⟨_, rfl, by
    rw [cdataOpen_eq]
    simp only [List.isPrefixOf, BEq.rfl, Bool.true_and]
    rw [show ((33#8 : Byte) == c) = false by simpa using Ne.symm h]
    rfl⟩

theorem TagStart.comment {t : Bytes} : TagStart (60#8 :: 33#8 :: 45#8 :: t) :=
  ⟨_, rfl, by rw [cdataOpen_eq]; rfl⟩

/-- Text that begins with escaped text and then a tag: it has no leading whitespace and does not begin
with a CDATA section. -/
theorem content_start (t : Bytes) {y : Bytes} (hy : TagStart y) :
    skipSpace (escapeString true t ++ y) = escapeString true t ++ y ∧
      cdataOpen.isPrefixOf (escapeString true t ++ y) = false := by
  cases t with
  | nil =>
    obtain ⟨u, rfl, h⟩ := hy
    exact ⟨skipSpace_cons (by decide), h⟩
  | cons b t =>
    have : ∃ c u, escapeString true (b :: t) = c :: u ∧ isSpace c = false ∧ c ≠ 60#8 := by
      simp only [escapeString, Bool.true_and]
      by_cases hb : isSpace b = true
      · simp only [hb, if_true]
        exact ⟨38#8, _, by rw [numbered_eq]; rfl, by decide, by decide⟩
      · simp only [hb, if_false, Bool.false_eq_true]
        rcases escapeByte_cases b with ⟨e, he, _⟩ | ⟨he, h60, _⟩
        · rw [he]; exact ⟨38#8, _, rfl, by decide, by decide⟩
        · rw [he]; exact ⟨b, _, rfl, by simpa using hb, h60⟩
    obtain ⟨c, u, h1, h2, h3⟩ := this
    rw [h1]
    refine ⟨skipSpace_cons h2, ?_⟩
    rw [cdataOpen_eq]
    simp only [List.cons_append, List.isPrefixOf]
    rw [show ((60#8 : Byte) == c) = false by simpa using Ne.symm h3]
    rfl

theorem writeIndent_space {d : Doc} (hp : ∀ b ∈ d.pre, isSpace b = true)
    (hi : ∀ b ∈ d.indent, isSpace b = true) (delta : Int) (notag : Bool) (depth : Int) :
    ∀ b ∈ (writeIndent d delta notag depth).1, isSpace b = true := by
  intro b hb
  unfold writeIndent at hb
  split at hb
  · simp at hb
  · cases notag with
    | true => simp at hb
    | false =>
      simp only [Bool.false_eq_true, if_false, List.cons_append, List.mem_cons, List.mem_append,
        List.mem_flatten, List.mem_replicate] at hb
      rcases hb with rfl | h | ⟨l, ⟨_, rfl⟩, h⟩
      · decide
      · exact hp b h
      · exact hi b h

/-- Reading back one tag; `kids` is what is written for the sub-tags. -/
theorem readTag_write {d : Doc} (hp : ∀ b ∈ d.pre, isSpace b = true)
    (hi : ∀ b ∈ d.indent, isSpace b = true) (root ni : Bool) (depth : Int) {h : Head} {hasTags : Bool}
    {kids : Int → Bytes × Int} {ts : List Tag} (hc : h.comment = false)
    (hn : checkName .tag h.startName = true) (hw : HeadWF h)
    (hroot : root = true → checkRoot { startName := h.startName, attr := attrsBack h.attr, empty := h.empty } = .ok ())
    (hk : ∀ depth s fuel, TagStart ((kids depth).1 ++ (60#8 :: 47#8 :: s)) ∧
      (2 * ((kids depth).1 ++ ([60#8, 47#8] ++ writtenEnd h ++ [62#8] ++ s)).length + 1 ≤ fuel →
        readTags fuel ((kids depth).1 ++ ([60#8, 47#8] ++ writtenEnd h ++ [62#8] ++ s)) =
          .ok (ts, writtenEnd h, s)))
    (s : Bytes) (fuel : Nat)
    (hf : 2 * ((writeTag d false ni depth h hasTags kids).1 ++ s).length ≤ fuel) :
    readTag fuel root ((writeTag d false ni depth h hasTags kids).1 ++ s) =
      .ok ((oneBack h ts).head?, s) := by
  obtain ⟨fuel, rfl⟩ : ∃ k, fuel = k + 1 := by
    refine ⟨fuel - 1, ?_⟩
    have : 0 < (writeTag d false ni depth h hasTags kids).1.length := by
      unfold writeTag
      simp only [hc, hn, Bool.not_true, Bool.and_false, Bool.false_eq_true, if_false]
      split <;> simp
    simp only [List.length_append] at hf
    omega
  have h60 : ∀ (root : Bool) (t : Bytes), (if root then skipSpace (60#8 :: t) else 60#8 :: t) = 60#8 :: t := by
    intro root t
    cases root
    · rfl
    · exact skipSpace_cons (by decide)
  have hr' : ∀ (hh : Head), hh = { startName := h.startName, attr := attrsBack h.attr, empty := h.empty } →
      (if root then checkRoot hh else Res.ok ()) = Res.ok () := by
    intro hh e
    cases root
    · rfl
    · rw [if_pos rfl, e]; exact hroot rfl
  unfold writeTag at hf ⊢
  simp only [hc, hn, Bool.not_true, Bool.and_false, Bool.false_eq_true, if_false, Bool.not_false,
    Bool.true_and] at hf ⊢
  cases he : h.empty with
  | true =>
    simp only [if_true]
    have hst := readStartTag_write hn hw (tail := [47#8, 62#8] ++ s) (s := s) (.inr ⟨he, rfl⟩)
    rw [show 60#8 :: h.startName ++ writeAttrs h.attr ++ [47#8, 62#8] ++ s =
      60#8 :: h.startName ++ writeAttrs h.attr ++ ([47#8, 62#8] ++ s) by simp]
    rw [readTag]
    simp only [List.cons_append] at hst ⊢
    rw [h60, hst]
    simp only
    rw [hr' _ rfl]
    simp [he, oneBack, hc, hn]
  | false =>
    simp only [he, Bool.false_eq_true, if_false] at hf ⊢
    generalize hI : (if (!ni && !h.noIndent && hasTags) = true then writeIndent d 1 false depth
      else ([], depth)) = I at hf ⊢
    have hIs : ∀ b ∈ I.1, isSpace b = true := by
      rw [← hI]
      split
      · exact writeIndent_space hp hi _ _ _
      · simp
    generalize hK : (kids I.2).1 = K at hf ⊢
    obtain ⟨hks, -⟩ := hk I.2 (writtenEnd h ++ [62#8] ++ s) 0
    have hkr := fun fuel => (hk I.2 s fuel).2
    rw [hK] at hks
    simp only [hK] at hkr
    have hY : TagStart (K ++ ([60#8, 47#8] ++ writtenEnd h ++ [62#8] ++ s)) := by simpa using hks
    obtain ⟨hsk, hcd⟩ := content_start h.text hY
    have hst := readStartTag_write hn hw
      (tail := 62#8 :: (writeCData h.cdata ++ (I.1 ++ (escapeString true h.text ++ (K ++ ([60#8, 47#8] ++ writtenEnd h ++ [62#8] ++ s))))))
      (.inl ⟨he, rfl⟩)
    have hshape : (60#8 :: h.startName ++ writeAttrs h.attr ++ [62#8] ++ writeCData h.cdata ++ I.1 ++
        escapeString true h.text ++ K ++ ([60#8, 47#8] ++ writtenEnd h ++ [62#8]) ++ s) =
        60#8 :: h.startName ++ writeAttrs h.attr ++ 62#8 :: (writeCData h.cdata ++ (I.1 ++ (escapeString true h.text ++ (K ++ ([60#8, 47#8] ++ writtenEnd h ++ [62#8] ++ s))))) := by
      simp
    rw [hshape] at hf ⊢
    have hfk : 2 * (K ++ ([60#8, 47#8] ++ writtenEnd h ++ [62#8] ++ s)).length + 1 ≤ fuel := by
      simp only [List.length_append, List.length_cons] at hf ⊢
      omega
    have htx : readText .plain (skipSpace (I.1 ++ (escapeString true h.text ++ (K ++ ([60#8, 47#8] ++ writtenEnd h ++ [62#8] ++ s))))) =
        .ok (textBack true false h.text, K ++ ([60#8, 47#8] ++ writtenEnd h ++ [62#8] ++ s)) := by
      rw [skipSpace_append hIs, hsk]
      obtain ⟨u, hu, _⟩ := hY
      rw [hu]
      exact readText_plain _ _
    have hcdata : ∃ s', readCData (skipSpace (writeCData h.cdata ++ (I.1 ++ (escapeString true h.text ++ (K ++ ([60#8, 47#8] ++ writtenEnd h ++ [62#8] ++ s)))))) =
        .ok (h.cdata.map (textBack false false), s') ∧ 
        readText .plain (skipSpace s') = .ok (textBack true false h.text, K ++ ([60#8, 47#8] ++ writtenEnd h ++ [62#8] ++ s)) := by
      cases hcd' : h.cdata with
      | none =>
        refine ⟨escapeString true h.text ++ (K ++ ([60#8, 47#8] ++ writtenEnd h ++ [62#8] ++ s)), ?_, ?_⟩
        · simp only [writeCData, List.nil_append]
          rw [skipSpace_append hIs, hsk, readCData, if_neg (by rw [hcd]; decide)]
          rfl
        · rw [skipSpace_append hIs] at htx
          exact htx
      | some c =>
        refine ⟨_, ?_, htx⟩
        have hno := hw.cdata he c hcd'
        simp only [writeCData, List.append_assoc]
        rw [show skipSpace (cdataOpen ++ (c ++ (str "]]>" ++ (I.1 ++ (escapeString true h.text ++ (K ++ ([60#8, 47#8] ++ (writtenEnd h ++ ([62#8] ++ s))))))))) =
          cdataOpen ++ (c ++ (str "]]>" ++ (I.1 ++ (escapeString true h.text ++ (K ++ ([60#8, 47#8] ++ (writtenEnd h ++ ([62#8] ++ s)))))))) by
            rw [cdataOpen_eq]; exact skipSpace_cons (by decide)]
        rw [readCData, if_pos (by
          rw [List.isPrefixOf_iff_prefix]
          exact ⟨_, rfl⟩), List.drop_left, readText_cdata hno]
        simp
    obtain ⟨s', hs1, hs2⟩ := hcdata
    rw [readTag]
    simp only [List.cons_append] at hst ⊢
    rw [h60, hst]
    simp only
    rw [hr' _ rfl]
    simp only [List.cons_append] at hs1 hs2 hkr hfk
    simp only [he, Bool.false_eq_true, if_false, hs1, hs2, hkr fuel hfk]
    simp [oneBack, hc, hn, he, headBack]

theorem readTags_skip {ws : Bytes} (h : ∀ b ∈ ws, isSpace b = true) (fuel : Nat) (s : Bytes) :
    readTags fuel (ws ++ s) = readTags fuel s := by
  cases fuel with
  | zero => simp [readTags]
  | succ fuel =>
    unfold readTags
    rw [skipSpace_append h]

theorem readEndTag_ok {n : Bytes} (hn : checkName .tag n = true) (s : Bytes) :
    readEndTag (n ++ [62#8] ++ s) = .ok (n, s) := by
  obtain ⟨hne, hall⟩ := checkName_all hn
  rw [List.append_assoc, List.singleton_append, readEndTag, readName_ok hall (by decide)]
  simp only [Res.ok_bind]
  rw [if_neg hne, skipSpace_cons (by decide)]
  rfl

theorem writtenEnd_ok {h : Head} (hn : checkName .tag h.startName = true) :
    checkName .tag (writtenEnd h) = true := by
  unfold writtenEnd
  split
  · exact hn
  split
  · assumption
  · exact hn

/-- Sub-tags begin with a tag, also before an end tag. -/
theorem writeTags_start (d : Doc) (noTags : Bool) : ∀ (ts : List Tag) (ni : Bool) (depth : Int) (s : Bytes),
    TagsWF ts → TagStart ((writeTags d noTags ni depth ts).1 ++ (60#8 :: 47#8 :: s))
  | [], ni, depth, s, _ => by
    simp only [writeTags, List.nil_append]
    exact .of_second (by decide)
  | ⟨h, ts⟩ :: rest, ni, depth, s, hw => by
    simp only [TagsWF, TagWF] at hw
    simp only [writeTags, writeSub]
    unfold writeTag
    by_cases hc : h.comment = true
    · simp only [hc, if_true]
      rw [show str "<!--" = [60#8, 33#8, 45#8, 45#8] by decide]
      simp only [List.cons_append]
      exact .comment
    · simp only [hc, Bool.false_eq_true, if_false, Bool.not_false, Bool.true_and]
      by_cases hn : checkName .tag h.startName = true
      · obtain ⟨hw1, _⟩ := hw.1 (by simpa using hc) hn
        obtain ⟨hne, _⟩ := checkName_all hn
        simp only [hn, Bool.not_true, Bool.false_eq_true, if_false]
        cases hs : h.startName with
        | nil => exact absurd hs hne
        | cons c t =>
          have hc33 : c ≠ 33#8 := by
            have := hw1.name c t hs
            simp at this; exact this.2
          split <;> (simp only [List.cons_append]; exact .of_second hc33)
      · simp only [hn, Bool.not_false, if_true, Bool.false_and, Bool.false_eq_true, if_false,
          List.nil_append, writeAfter]
        exact writeTags_start d noTags rest ni depth s hw.2

/-- Reading back the sub-tags of a tag. -/
theorem readTags_write {d : Doc} (hp : ∀ b ∈ d.pre, isSpace b = true)
    (hi : ∀ b ∈ d.indent, isSpace b = true) (noTags : Bool) {name : Bytes}
    (hname : checkName .tag name = true) :
    ∀ (ts : List Tag) (ni : Bool) (depth : Int) (s : Bytes) (fuel : Nat), TagsWF ts →
      2 * ((writeTags d noTags ni depth ts).1 ++ ([60#8, 47#8] ++ name ++ [62#8] ++ s)).length + 1 ≤ fuel →
      readTags fuel ((writeTags d noTags ni depth ts).1 ++ ([60#8, 47#8] ++ name ++ [62#8] ++ s)) =
        .ok (tagsBack ts, name, s)
  | [], ni, depth, s, fuel, _, hf => by
    obtain ⟨fuel, rfl⟩ : ∃ k, fuel = k + 1 := ⟨fuel - 1, by omega⟩
    simp only [writeTags, List.nil_append, List.cons_append]
    unfold readTags
    rw [skipSpace_cons (by decide)]
    have := readEndTag_ok hname s
    simp only [this, tagsBack]
  | ⟨h, ts⟩ :: rest, ni, depth, s, fuel, hw, hf => by
    simp only [TagsWF, TagWF] at hw
    simp only [writeTags, writeSub] at hf ⊢
    generalize hW : writeTag d false ni depth h (!ts.isEmpty)
      (fun depth => writeTags d false (ni || h.noIndent) depth ts) = W at hf ⊢
    generalize hI : writeAfter d noTags ni rest.isEmpty W = I at hf ⊢
    have hIs : ∀ b ∈ I.1, isSpace b = true := by
      rw [← hI]
      unfold writeAfter
      split
      · split
        · split
          · exact writeIndent_space hp hi _ _ _
          · exact writeIndent_space hp hi _ _ _
        · exact writeIndent_space hp hi _ _ _
      · simp
    have hIr : ∀ fuel, readTags fuel (I.1 ++ ((writeTags d noTags ni I.2 rest).1 ++ ([60#8, 47#8] ++ name ++ [62#8] ++ s))) =
        readTags fuel ((writeTags d noTags ni I.2 rest).1 ++ ([60#8, 47#8] ++ name ++ [62#8] ++ s)) :=
      fun fuel => readTags_skip hIs fuel _
    obtain ⟨fuel, rfl⟩ : ∃ k, fuel = k + 1 := ⟨fuel - 1, by omega⟩
    rw [show W.1 ++ I.1 ++ (writeTags d noTags ni I.2 rest).1 ++ ([60#8, 47#8] ++ name ++ [62#8] ++ s) =
      W.1 ++ (I.1 ++ ((writeTags d noTags ni I.2 rest).1 ++ ([60#8, 47#8] ++ name ++ [62#8] ++ s))) by simp] at hf ⊢
    simp only [tagsBack, tagBack]
    -- a tag that is ignored writes nothing
    by_cases hskip : h.comment = false ∧ checkName .tag h.startName = false
    · have hW' : W = ([], depth, false) := by
        rw [← hW]; unfold writeTag; simp [hskip]
      have hI' : I = ([], depth) := by rw [← hI, hW']; simp [writeAfter]
      rw [hW', hI'] at hf ⊢
      simp only [List.nil_append] at hf ⊢
      have ih := readTags_write hp hi noTags hname rest ni depth s (fuel + 1) hw.2 hf
      rw [ih]
      simp [oneBack, hskip]
    · have hlen : 0 < W.1.length := by
        rw [← hW]; unfold writeTag
        by_cases hc : h.comment = true
        · simp only [hc, if_true]
          simp [show str "<!--" = [60#8, 33#8, 45#8, 45#8] by decide]
        · have hn : checkName .tag h.startName = true := by
            cases hh : checkName .tag h.startName
            · exact absurd ⟨by simpa using hc, hh⟩ hskip
            · rfl
          simp only [hc, hn, Bool.not_true, Bool.and_false, Bool.false_eq_true, if_false]
          split <;> simp
      have ih := readTags_write hp hi noTags hname rest ni I.2 s fuel hw.2
        (by simp only [List.length_append] at hf ⊢; omega)
      have hone : ∀ fuel, 2 * (W.1 ++ (I.1 ++ ((writeTags d noTags ni I.2 rest).1 ++ ([60#8, 47#8] ++ name ++ [62#8] ++ s)))).length ≤ fuel →
          readTag fuel false (W.1 ++ (I.1 ++ ((writeTags d noTags ni I.2 rest).1 ++ ([60#8, 47#8] ++ name ++ [62#8] ++ s)))) =
            .ok ((oneBack h (tagsBack ts)).head?, I.1 ++ ((writeTags d noTags ni I.2 rest).1 ++ ([60#8, 47#8] ++ name ++ [62#8] ++ s))) := by
        intro fuel hf'
        generalize I.1 ++ ((writeTags d noTags ni I.2 rest).1 ++ ([60#8, 47#8] ++ name ++ [62#8] ++ s)) = X at hf' ⊢
        by_cases hc : h.comment = true
        · have hW' : W.1 = str "<!--" ++ escapeString true h.text ++ str "-->" := by
            rw [← hW]; unfold writeTag; simp [hc]
          rw [hW'] at hf' ⊢
          obtain ⟨fuel, rfl⟩ : ∃ k, fuel = k + 1 := by
            refine ⟨fuel - 1, ?_⟩
            simp only [List.length_append] at hf'
            have : (str "<!--").length = 4 := by decide
            omega
          rw [show str "<!--" = [60#8, 33#8, 45#8, 45#8] by decide, List.append_assoc, List.append_assoc]
          simp only [List.cons_append, List.nil_append]
          unfold readTag
          simp only [Bool.false_eq_true, if_false, readStartTag]
          rw [readComment_write _ _ (fun hm => (escapeString_bytes _ _ _ hm).1 rfl)]
          simp [oneBack, hc]
        · have hc' : h.comment = false := by simpa using hc
          have hn : checkName .tag h.startName = true := by
            cases hh : checkName .tag h.startName
            · exact absurd ⟨hc', hh⟩ hskip
            · rfl
          obtain ⟨hw1, hw2⟩ := hw.1 hc' hn
          rw [← hW] at hf' ⊢
          refine readTag_write hp hi false ni depth hc' hn hw1 (by simp) ?_ X fuel hf'
          intro depth' s' fuel'
          exact ⟨writeTags_start d false ts _ _ _ hw2,
            fun hf'' => readTags_write hp hi false (writtenEnd_ok hn) ts _ _ s' fuel' hw2 hf''⟩
      have hstart : ∃ t, W.1 ++ (I.1 ++ ((writeTags d noTags ni I.2 rest).1 ++ ([60#8, 47#8] ++ name ++ [62#8] ++ s))) = 60#8 :: t ∧
          ∀ u, t ≠ 47#8 :: u := by
        rw [← hW]; unfold writeTag
        by_cases hc : h.comment = true
        · simp only [hc, if_true]
          rw [show str "<!--" = [60#8, 33#8, 45#8, 45#8] by decide]
          exact ⟨_, by simp only [List.cons_append]; rfl, by intro u hu; cases hu⟩
        · have hc' : h.comment = false := by simpa using hc
          have hn : checkName .tag h.startName = true := by
            cases hh : checkName .tag h.startName
            · exact absurd ⟨hc', hh⟩ hskip
            · rfl
          obtain ⟨hw1, _⟩ := hw.1 hc' hn
          obtain ⟨hne, _⟩ := checkName_all hn
          simp only [hc, hn, Bool.not_true, Bool.and_false, Bool.false_eq_true, if_false]
          cases hs : h.startName with
          | nil => exact absurd hs hne
          | cons c t =>
            have hc47 : c ≠ 47#8 := by
              have := hw1.name c t hs
              simp at this; exact this.1
            split
            all_goals
              refine ⟨_, by simp only [List.cons_append]; rfl, ?_⟩
              intro u hu
              exact hc47 (List.cons.inj hu).1
      obtain ⟨t, ht, ht47⟩ := hstart
      have hr1 := hone fuel (by omega)
      rw [ht] at hr1 ⊢
      unfold readTags
      rw [skipSpace_cons (by decide)]
      split
      · rename_i heq
        exact absurd (List.cons.inj heq).2 (ht47 _)
      · rename_i heq
        obtain ⟨-, rfl⟩ := List.cons.inj heq
        rw [hr1]
        simp only
        rw [hIr, ih]
        have : (oneBack h (tagsBack ts)).head?.toList = oneBack h (tagsBack ts) := by
          unfold oneBack
          split
          · rfl
          split
          · rfl
          split <;> rfl
        simp [this]
      · rename_i h1 h2
        exact absurd rfl (h2 _)

/-- Writing a document and reading it back. -/
theorem readFrom_writeTo {d : Doc} (hp : ∀ b ∈ d.pre, isSpace b = true)
    (hi : ∀ b ∈ d.indent, isSpace b = true) (hx : d.excludeRoot = false) {h : Head} {ts : List Tag}
    (hr : d.root = some ⟨h, ts⟩) (hc : h.comment = false) (hn : checkName .tag h.startName = true)
    (hw : HeadWF h) (hts : TagsWF ts)
    (hroot : checkRoot { startName := h.startName, attr := attrsBack h.attr, empty := h.empty } = .ok ()) :
    readFrom (writeTo d) = .ok ((oneBack h (tagsBack ts)).head?, d.suffix) := by
  simp only [readFrom, writeTo, hr, hx, Bool.or_self]
  generalize hW : (writeTag d false h.noIndent 0 h (!ts.isEmpty)
    (fun depth => writeTags d false h.noIndent depth ts)).1 = W
  have hmain : ∀ fuel, 2 * (W ++ d.suffix).length ≤ fuel →
      readTag fuel true (W ++ d.suffix) = .ok ((oneBack h (tagsBack ts)).head?, d.suffix) := by
    intro fuel hf
    rw [← hW] at hf ⊢
    refine readTag_write hp hi true h.noIndent 0 hc hn hw (fun _ => hroot) ?_ d.suffix fuel hf
    intro depth' s' fuel'
    exact ⟨writeTags_start d false ts _ _ _ hts,
      fun hf'' => readTags_write hp hi false (writtenEnd_ok hn) ts _ _ s' fuel' hts hf''⟩
  rw [List.append_assoc]
  have hskip : ∀ fuel, readTag (fuel + 1) true (d.pre ++ (W ++ d.suffix)) =
      readTag (fuel + 1) true (W ++ d.suffix) := by
    intro fuel
    unfold readTag
    simp only [if_true, skipSpace_append hp]
  rw [hskip]
  exact hmain _ (by simp only [List.length_append]; omega)

end Rbxlx

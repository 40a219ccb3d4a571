import Verif.Rbxlx.DocLemmas
import Verif.Rbxlx.Total
import Verif.Spec.XmlDoc
/-!
# XML text, attributes and documents (C38, C39, C40, C61, C62)
-/
namespace Props
open Go Rbxfile Rbxlx Spec

/-! ## C38: text survives escaping -/

/-- **C38.** The text of a tag: for every string, escaping it and parsing it up to the next tag yields the
string with CR and CR LF outside leading whitespace read as LF, and parsing stops at the tag. -/
theorem C38_text (t s : Bytes) :
    readText .plain (escapeString true t ++ 60#8 :: s) = .ok (normText t, 60#8 :: s) := by
  rw [readText_plain, textBack_lead]

/-- **C38.** The value of an attribute: for every string, escaping it and parsing it up to the closing
quote yields the string with line ends normalised. -/
theorem C38_attribute (t s : Bytes) :
    readText .quoted (escapeString false t ++ 34#8 :: s) = .ok (normNewlines t, s) := by
  rw [readText_quoted, textBack_norm]

theorem normText_of_no_cr {t : Bytes} (h : 13#8 ∉ t) : normText t = t := by
  unfold normText
  rw [normNewlines_of_no_cr, List.takeWhile_append_dropWhile]
  intro hm
  exact h ((List.dropWhile_suffix _).subset hm)

/-- **C38.** A string without carriage returns survives unchanged, as text and as attribute value. -/
theorem C38_no_cr {t : Bytes} (h : 13#8 ∉ t) (s : Bytes) :
    readText .plain (escapeString true t ++ 60#8 :: s) = .ok (t, 60#8 :: s) ∧
    readText .quoted (escapeString false t ++ 34#8 :: s) = .ok (t, s) := by
  rw [C38_text, C38_attribute, normText_of_no_cr h, normNewlines_of_no_cr h]
  exact ⟨rfl, rfl⟩

/-- **C38**, the limit: a carriage return inside a text is not preserved. -/
theorem C38_cr_fails (s : Bytes) :
    readText .plain (escapeString true (str "a\rb") ++ 60#8 :: s) = .ok (str "a\nb", 60#8 :: s) := by
  rw [C38_text]
  congr 1

/-- A case: markup, quotes, control characters and leading whitespace all survive. -/
example (s : Bytes) :
    readText .plain (escapeString true (str " \t<a href=\"&lt;\">]]>" ++ [0#8, 255#8]) ++ 60#8 :: s) =
      .ok (str " \t<a href=\"&lt;\">]]>" ++ [0#8, 255#8], 60#8 :: s) :=
  (C38_no_cr (by decide) s).1

/-! ## C39: documents round-trip -/

theorem checkName_of {typ : NameType} {n : Bytes} {ni nf : List Nat} (h : XmlName ni nf n)
    (ht : ∀ c : Byte, 33 ≤ c.toNat ∧ c.toNat ≤ 126 ∧ c.toNat ≠ 62 ∧ c.toNat ∉ ni → isNameByte typ c = true) :
    checkName typ n = true := by
  simp only [checkName, Bool.and_eq_true, decide_eq_true_eq, List.all_eq_true]
  exact ⟨h.nonempty, fun c hc => ht c (h.bytes c hc)⟩

theorem nameByte_tag (c : Byte) (h : 33 ≤ c.toNat ∧ c.toNat ≤ 126 ∧ c.toNat ≠ 62 ∧ c.toNat ∉ ([] : List Nat)) :
    isNameByte .tag c = true := by
  have : c ≠ 62#8 := by rintro rfl; exact h.2.2.1 rfl
  simp [isNameByte, h.1, h.2.1, this]

theorem nameByte_attr (c : Byte) (h : 33 ≤ c.toNat ∧ c.toNat ≤ 126 ∧ c.toNat ≠ 62 ∧ c.toNat ∉ [61]) :
    isNameByte .attr c = true := by
  have h1 : c ≠ 62#8 := by rintro rfl; exact h.2.2.1 rfl
  have h2 : c ≠ 61#8 := by rintro rfl; exact h.2.2.2 (by simp)
  simp [isNameByte, h.1, h.2.1, h1, h2]

theorem checkTag {n : Bytes} (h : TagName n) : checkName .tag n = true := checkName_of h nameByte_tag
theorem checkAttr {n : Bytes} (h : AttrName n) : checkName .attr n = true := checkName_of h nameByte_attr

theorem plainHead_wf {h : Head} {k : Bool} (hp : PlainHead h k) : HeadWF h where
  name := by
    intro c t e hc
    have := hp.name.first c t e
    simp only [List.mem_cons, List.not_mem_nil, or_false] at hc this
    rcases hc with rfl | rfl <;> simp at this
  attr := by
    intro a ha c t e hc
    have := (hp.attrNames a ha).first c t e
    simp only [List.mem_cons, List.not_mem_nil, or_false] at hc this
    subst hc; simp at this
  empty := by
    intro he
    obtain ⟨h1, _⟩ := hp.empty he
    cases ha : h.attr with
    | nil => exact absurd ha h1
    | cons a l => exact ⟨a, by simp, checkAttr (hp.attrNames a (by simp [ha]))⟩
  cdata := fun _ c hc => (hp.cdata c hc).2

theorem plain_wf : ∀ {ts : List Tag}, Plain ts → TagsWF ts
  | [], _ => trivial
  | ⟨_, _⟩ :: _, hp => ⟨fun _ _ => ⟨plainHead_wf hp.1.1, plain_wf hp.1.2⟩, plain_wf hp.2⟩

theorem attrsBack_plain : ∀ {attr : List (Bytes × Bytes)}, (∀ a ∈ attr, AttrName a.1) →
    (∀ a ∈ attr, 13#8 ∉ a.2) → attrsBack attr = attr
  | [], _, _ => rfl
  | (n, v) :: rest, h1, h2 => by
    have ih := attrsBack_plain (attr := rest) (fun a ha => h1 a (by simp [ha])) (fun a ha => h2 a (by simp [ha]))
    have hn : checkName .attr n = true := checkAttr (h1 (n, v) (by simp))
    simp only [attrsBack, hn, if_true, ih, textBack_norm, List.singleton_append]
    rw [normNewlines_of_no_cr (h2 (n, v) (by simp))]

theorem textBack_plain {h : Head} {k : Bool} (hp : PlainHead h k) : textBack true false h.text = h.text := by
  rw [textBack_lead, normText]
  rw [normNewlines_of_no_cr, List.takeWhile_append_dropWhile]
  cases hd : h.text.dropWhile (fun b => decide (XmlSpace b)) with
  | nil => simp
  | cons c u =>
    refine hp.text (h.text.takeWhile (fun b => decide (XmlSpace b))) _ ?_ ⟨c, u, rfl, ?_⟩
    · rw [← hd, List.takeWhile_append_dropWhile]
    · have hs := List.head_dropWhile_not (l := h.text) (fun b => decide (XmlSpace b)) (by rw [hd]; simp)
      simp only [hd, List.head_cons] at hs
      simpa using hs

theorem oneBack_plain {h : Head} {k : Bool} (hp : PlainHead h k) (he : h.empty = false) (kids : List Tag) :
    oneBack h kids = [⟨headBack h, kids⟩] ∧
      { headBack h with endName := [], noIndent := false } = { h with endName := [], noIndent := false } := by
  have hn := checkTag hp.name
  refine ⟨by simp [oneBack, hp.noComment, hn, he], ?_⟩
  have hc : h.cdata.map (textBack false false) = h.cdata := by
    cases hcd : h.cdata with
    | none => rfl
    | some c =>
      simp only [Option.map_some, textBack_norm]
      rw [normNewlines_of_no_cr (hp.cdata c hcd).1]
  simp only [headBack, attrsBack_plain hp.attrNames hp.attrValues, hc, textBack_plain hp,
    hp.noComment, he]

theorem content_append (a b : List Tag) : content (a ++ b) = content a ++ content b := by
  induction a with
  | nil => rfl
  | cons x a ih => obtain ⟨h, ts⟩ := x; simp [content, contentOf, ih]

theorem content_oneBack {h : Head} {ts kids : List Tag} (hp : PlainHead h (!ts.isEmpty))
    (hk : content kids = content ts) :
    content (oneBack h kids) = [⟨{ h with endName := [], noIndent := false }, content ts⟩] := by
  cases he : h.empty with
  | false =>
    obtain ⟨h1, h2⟩ := oneBack_plain hp he kids
    rw [h1]
    simp only [content, contentOf, hk]
    rw [h2, he]
  | true =>
    obtain ⟨_, h2, h3, h4⟩ := hp.empty he
    have hts : ts = [] := by cases ts <;> simp_all
    have hn := checkTag hp.name
    subst hts
    simp only [oneBack, hp.noComment, hn, he, Bool.not_true, Bool.false_eq_true, if_false, if_true,
      attrsBack_plain hp.attrNames hp.attrValues, content, contentOf, h2, h3]

theorem content_back : ∀ {ts : List Tag}, Plain ts → content (tagsBack ts) = content ts
  | [], _ => rfl
  | ⟨h, ts⟩ :: rest, hp => by
    simp only [tagsBack, tagBack, content_append, content_oneBack hp.1.1 (content_back hp.1.2),
      content_back hp.2, content, contentOf, List.singleton_append]

/-- The root tag that the reader requires: named `roblox` with a version of at least 4. -/
structure RobloxTag (h : Head) : Prop where
  name : h.startName = str "roblox"
  version : ∃ v, attrValue h.attr (str "version") = some v ∧ ∃ n : Nat, 4 ≤ n ∧ n < 2 ^ 31 ∧ v = formatUint n

/-- **C39.** Writing a document whose indentation is whitespace and reading it back yields the same tags,
attributes, CDATA sections and text, in the same order and nesting, and the same suffix, whenever the names
are valid and no carriage return occurs outside leading whitespace of text. Partial: tags with such
carriage returns, comments, empty tags without attributes, and CDATA containing `]]>` are excluded; see
`C39_read_back` for what they become and the `_fails` theorems. -/
theorem C39_document_partial {d : Doc} (hpre : ∀ b ∈ d.pre, XmlSpace b) (hind : ∀ b ∈ d.indent, XmlSpace b)
    (hx : d.excludeRoot = false) {h : Head} {ts : List Tag} (hr : d.root = some ⟨h, ts⟩)
    (hp : Plain [⟨h, ts⟩]) (hroot : RobloxTag h) :
    ∃ t, readFrom (writeTo d) = .ok (some t, d.suffix) ∧ content [t] = content [⟨h, ts⟩] := by
  obtain ⟨⟨hph, hpt⟩, -⟩ := hp
  have hn := checkTag hph.name
  have hab := attrsBack_plain hph.attrNames hph.attrValues
  have hro : checkRoot { startName := h.startName, attr := attrsBack h.attr, empty := h.empty } = .ok () := by
    obtain ⟨v, hv, n, hn1, hn2, rfl⟩ := hroot.version
    unfold checkRoot
    simp only [hroot.name, hab, hv, ne_eq, not_true_eq_false, if_false]
    rw [parseInt_formatUint (by decide) hn2]
    simp only
    rw [if_neg (by omega)]
  have := readFrom_writeTo (d := d) (fun b hb => (isSpace_iff b).2 (hpre b hb))
    (fun b hb => (isSpace_iff b).2 (hind b hb)) hx hr hph.noComment hn (plainHead_wf hph) (plain_wf hpt) hro
  have hc := content_oneBack hph (content_back hpt)
  cases ho : oneBack h (tagsBack ts) with
  | nil => rw [ho] at hc; simp [content] at hc
  | cons t l =>
    cases l with
    | cons u l' => obtain ⟨a, b⟩ := t; obtain ⟨a', b'⟩ := u; rw [ho] at hc; simp [content] at hc
    | nil =>
      rw [ho] at this hc
      exact ⟨t, this, by rw [hc]; simp [content, contentOf]⟩

/-- **C39**, exactly: what is read back from any document whose root is accepted and whose names are not
mistaken for other markup. Tags with invalid names are dropped, attributes with invalid names are dropped,
the text of comments stays escaped, and the content of empty tags is dropped. -/
theorem C39_read_back {d : Doc} (hpre : ∀ b ∈ d.pre, XmlSpace b) (hind : ∀ b ∈ d.indent, XmlSpace b)
    (hx : d.excludeRoot = false) {h : Head} {ts : List Tag} (hr : d.root = some ⟨h, ts⟩)
    (hc : h.comment = false) (hw : TagsWF [⟨h, ts⟩]) (hroot : h.startName = str "roblox")
    {v : Bytes} (hv : attrValue (attrsBack h.attr) (str "version") = some v)
    (hver : ∃ n : Int, parseInt 32 v = (n, .none) ∧ 4 ≤ n) :
    readFrom (writeTo d) = .ok ((tagsBack [⟨h, ts⟩]).head?, d.suffix) := by
  have hn : checkName .tag h.startName = true := by rw [hroot]; decide
  obtain ⟨n, hn1, hn2⟩ := hver
  have hro : checkRoot { startName := h.startName, attr := attrsBack h.attr, empty := h.empty } = .ok () := by
    unfold checkRoot
    simp only [hroot, hv, ne_eq, not_true_eq_false, if_false, hn1]
    rw [if_neg (by omega)]
  obtain ⟨hw1, hw2⟩ := hw.1 hc hn
  have := readFrom_writeTo (d := d) (fun b hb => (isSpace_iff b).2 (hpre b hb))
    (fun b hb => (isSpace_iff b).2 (hind b hb)) hx hr hc hn hw1 hw2 hro
  rw [this]
  simp [tagsBack, tagBack]

/-- A document for the examples: nested tags, attributes, CDATA, text with markup and leading whitespace. -/
def sampleDoc (root : Tag) : Doc where
  pre := str " "
  indent := str "\t"
  suffix := str "<!-- rest"
  root := some root

/-- A root tag for the examples. -/
def sampleRoot (ts : List Tag) : Tag := ⟨{ startName := str "roblox", attr := [(str "version", str "4")] }, ts⟩

/-- The parts of a result that the examples look at. -/
def readsAs (d : Doc) (ts : List Tag) : Prop :=
  ∃ h, readFrom (writeTo d) = .ok (some ⟨h, ts⟩, d.suffix)

/-- The hypotheses of `C39_document_partial` hold for a document with nested tags. -/
example : ∃ t, readFrom (writeTo (sampleDoc (sampleRoot
      [⟨{ startName := str "a", attr := [(str "x", str "<\">&")], empty := true }, []⟩,
       ⟨{ startName := str "b", cdata := some (str "<]]"), text := str "\r\n <x>" }, [⟨{ startName := str "c" }, []⟩]⟩]))) =
      .ok (some t, str "<!-- rest") ∧
    content [t] = content [sampleRoot
      [⟨{ startName := str "a", attr := [(str "x", str "<\">&")], empty := true }, []⟩,
       ⟨{ startName := str "b", cdata := some (str "<]]"), text := str "\r\n <x>" }, [⟨{ startName := str "c" }, []⟩]⟩]] := by
  have name : ∀ {n ni nf : List Nat} (s : Bytes), s ≠ [] →
      (∀ c ∈ s, 33 ≤ c.toNat ∧ c.toNat ≤ 126 ∧ c.toNat ≠ 62 ∧ c.toNat ∉ ni) →
      (∀ c ∈ s.head?, c.toNat ∉ nf) → XmlName ni nf s := by
    intro _ ni nf s h1 h2 h3
    exact ⟨h1, h2, by intro c t e; exact h3 c (by rw [e]; simp)⟩
  have notext : ∀ lead t : Bytes, ([] : Bytes) = lead ++ t → (∃ c u, t = c :: u ∧ ¬ XmlSpace c) → 13#8 ∉ t := by
    intro lead t h ⟨c, u, h2, _⟩
    subst h2
    simp at h
  refine C39_document_partial (d := sampleDoc _) (h := { startName := str "roblox", attr := [(str "version", str "4")] })
    (by decide) (by decide) rfl rfl ?_
    ⟨rfl, str "4", by decide, 4, by decide, by decide, by decide⟩
  have nm : ∀ {ni nf : List Nat} (s : Bytes), s ≠ [] →
      (∀ c ∈ s, 33 ≤ c.toNat ∧ c.toNat ≤ 126 ∧ c.toNat ≠ 62 ∧ c.toNat ∉ ni) →
      (∀ c ∈ s.head?, c.toNat ∉ nf) → XmlName ni nf s := fun s => name (n := []) s
  refine ⟨⟨⟨rfl, nm _ (by decide) (by decide) (by decide), ?_, by decide, by simp, by simp, notext⟩,
    ⟨⟨rfl, nm _ (by decide) (by decide) (by decide), ?_, by decide, by simp, by simp, notext⟩, trivial⟩,
    ⟨⟨rfl, nm _ (by decide) (by decide) (by decide), by simp, by simp, by simp, ?_, ?_⟩,
      ⟨⟨rfl, nm _ (by decide) (by decide) (by decide), by simp, by simp, by simp, by simp, notext⟩, trivial⟩,
      trivial⟩, trivial⟩, trivial⟩
  · intro a ha
    simp only [List.mem_singleton] at ha
    subst ha
    exact name (n := []) _ (by decide) (by decide) (by decide)
  · intro a ha
    simp only [List.mem_singleton] at ha
    subst ha
    exact name (n := []) _ (by decide) (by decide) (by decide)
  · intro c hc
    cases hc
    exact ⟨by decide, by decide⟩
  · intro lead t h ⟨c, u, h2, h3⟩ hm
    -- the text is CR LF space and then `<x>`
    have e : str "\r\n <x>" = [13#8, 10#8, 32#8, 60#8, 120#8, 62#8] := by decide
    rw [e, h2] at h
    match lead, h with
    | [], h => cases h; exact h3 (by decide)
    | [_], h => cases h; exact h3 (by decide)
    | [_, _], h => cases h; exact h3 (by decide)
    | [_, _, _], h => cases h; subst h2; revert hm; decide
    | [_, _, _, _], h => cases h; subst h2; revert hm; decide
    | [_, _, _, _, _], h => cases h; subst h2; revert hm; decide
    | _ :: _ :: _ :: _ :: _ :: _ :: l, h => cases l <;> simp at h

/-- **C39**, a limit: a comment is not read back as it was (its text stays escaped). -/
theorem C39_comment_fails :
    readsAs (sampleDoc (sampleRoot [⟨{ comment := true, text := str "a & b" }, []⟩]))
      [⟨{ comment := true, text := str "a &amp; b" }, []⟩] := by
  refine ⟨{ startName := str "roblox", endName := str "roblox", attr := [(str "version", str "4")] }, ?_⟩
  decide +kernel

/-- **C39**, a limit: an empty tag without attributes makes the output unreadable. -/
theorem C39_empty_fails :
    (readFrom (writeTo (sampleDoc (sampleRoot [⟨{ startName := str "a", empty := true }, []⟩])))).isErr := by
  decide +kernel

/-- **C39**, a limit: carriage returns in an attribute value are lost. -/
theorem C39_cr_fails :
    readsAs (sampleDoc (sampleRoot [⟨{ startName := str "a", attr := [(str "n", str "x\r\ny")] }, []⟩]))
      [⟨{ startName := str "a", endName := str "a", attr := [(str "n", str "x\ny")] }, []⟩] :=
  ⟨{ startName := str "roblox", endName := str "roblox", attr := [(str "version", str "4")] }, by decide +kernel⟩

/-! ## C40: attributes -/

theorem attrValue_append (a b : List (Bytes × Bytes)) (n : Bytes) :
    attrValue (a ++ b) n = (attrValue a n).or (attrValue b n) := by
  induction a with
  | nil => rfl
  | cons x a ih =>
    simp only [List.cons_append, attrValue]
    split <;> simp [ih]

theorem attrValue_none {a : List (Bytes × Bytes)} {n : Bytes} : attrValue a n = none ↔ n ∉ a.map Prod.fst := by
  induction a with
  | nil => simp [attrValue]
  | cons x a ih =>
    simp only [attrValue, List.map_cons, List.mem_cons, not_or]
    split
    · rename_i h; simp [h]
    · rename_i h; rw [ih]; simp [Ne.symm h]

theorem attrValue_eraseIdx {a : List (Bytes × Bytes)} {m : Bytes} {i : Nat}
    (h : ∀ x, a[i]? = some x → x.1 ≠ m) : attrValue (a.eraseIdx i) m = attrValue a m := by
  induction a generalizing i with
  | nil => rfl
  | cons x a ih =>
    cases i with
    | zero =>
      have := h x rfl
      simp [attrValue, this]
    | succ i =>
      simp only [List.eraseIdx_cons_succ, attrValue]
      rw [ih (fun y hy => h y (by simpa using hy))]

theorem findIdx_split {a : List (Bytes × Bytes)} {n : Bytes} {i : Nat}
    (h : a.findIdx? (fun x => decide (x.1 = n)) = some i) :
    ∃ l x r, a = l ++ x :: r ∧ l.length = i ∧ x.1 = n ∧ n ∉ l.map Prod.fst := by
  induction a generalizing i with
  | nil => simp at h
  | cons x a ih =>
    rw [List.findIdx?_cons] at h
    split at h
    · rename_i hx
      simp only [Option.some.injEq] at h
      exact ⟨[], x, a, rfl, by simpa using h, by simpa using hx, by simp⟩
    · rename_i hx
      simp only [Option.map_eq_some_iff] at h
      obtain ⟨j, hj, rfl⟩ := h
      obtain ⟨l, y, r, rfl, h1, h2, h3⟩ := ih hj
      refine ⟨x :: l, y, r, rfl, by simp [h1], h2, ?_⟩
      simp only [List.map_cons, List.mem_cons, not_or]
      exact ⟨by simpa [eq_comm] using hx, h3⟩

/-- **C40.** `AttrValue` returns the value of the first attribute of that name, in document order. -/
theorem C40_first (pre post : List (Bytes × Bytes)) (n v : Bytes) (h : ∀ a ∈ pre, a.1 ≠ n) :
    attrValue (pre ++ (n, v) :: post) n = some v := by
  rw [attrValue_append, attrValue_none.2 (by simpa using fun v hm => h (n, v) hm rfl)]
  simp [attrValue]

/-- **C40.** There is no value exactly if no attribute has the name. -/
theorem C40_missing (a : List (Bytes × Bytes)) (n : Bytes) : attrValue a n = none ↔ ∀ x ∈ a, x.1 ≠ n := by
  rw [attrValue_none]
  simp only [List.mem_map, not_exists, not_and]

/-- **C40.** `SetAttrValue` does not affect the value of any other attribute. -/
theorem C40_other_unaffected (a : List (Bytes × Bytes)) {n m : Bytes} (v : Bytes) (h : m ≠ n) :
    attrValue (setAttrValue a n v) m = attrValue a m := by
  unfold setAttrValue
  split
  · rename_i i hi
    split
    · obtain ⟨l, x, r, rfl, rfl, hx, -⟩ := findIdx_split hi
      exact attrValue_eraseIdx (by intro y hy; simp at hy; subst hy; rw [hx]; exact Ne.symm h)
    · rfl
  · split
    · rfl
    · rw [attrValue_append]
      simp [attrValue, Ne.symm h]

/-- **C40.** Setting an attribute that does not exist: the value is returned from then on; the empty value
means that there is no attribute. Partial: an existing attribute is not updated, see `C40_update_fails`. -/
theorem C40_set_new_partial (a : List (Bytes × Bytes)) (n v : Bytes) (h : attrValue a n = none) :
    attrValue (setAttrValue a n v) n = if v = [] then none else some v := by
  unfold setAttrValue
  split
  · rename_i i hi
    obtain ⟨l, x, r, rfl, rfl, hx, -⟩ := findIdx_split hi
    rw [attrValue_none] at h
    exact absurd (by simp [hx]) h
  · split
    · exact h
    · rw [attrValue_append, h]
      simp [attrValue]

/-- **C40.** Setting the empty value removes the attribute when names are distinct. -/
theorem C40_remove (a : List (Bytes × Bytes)) (n : Bytes) (hd : (a.map Prod.fst).Nodup) :
    attrValue (setAttrValue a n []) n = none := by
  unfold setAttrValue
  split
  · rename_i i hi
    obtain ⟨l, x, r, rfl, rfl, hx, hl⟩ := findIdx_split hi
    simp only [if_true]
    rw [attrValue_none]
    have : (l ++ x :: r).eraseIdx l.length = l ++ r := by
      rw [List.eraseIdx_append_of_length_le (Nat.le_refl _)]
      simp
    rw [this, List.map_append, List.mem_append, not_or]
    refine ⟨hl, ?_⟩
    simp only [List.map_append, List.map_cons, hx] at hd
    have := (List.nodup_append.1 hd).2.1
    exact (List.nodup_cons.1 this).1
  · rename_i hi
    simp only [if_true]
    rw [attrValue_none]
    intro hm
    obtain ⟨x, hx, he⟩ := List.mem_map.1 hm
    rw [List.findIdx?_eq_none_iff] at hi
    have := hi x hx
    simp [he] at this

/-- **C40** is false: setting an attribute that exists to another value has no effect. -/
theorem C40_update_fails (pre post : List (Bytes × Bytes)) (n v w : Bytes) (hw : w ≠ [])
    (h : ∀ a ∈ pre, a.1 ≠ n) :
    attrValue (setAttrValue (pre ++ (n, v) :: post) n w) n = some v := by
  unfold setAttrValue
  split
  · rw [if_neg hw, C40_first _ _ _ _ h]
  · rename_i hi
    rw [List.findIdx?_eq_none_iff] at hi
    have := hi (n, v) (by simp)
    simp at this

/-- A case of the theorems above. -/
example : attrValue (setAttrValue [(str "class", str "Part")] (str "referent") (str "R1")) (str "referent") =
      some (str "R1") ∧
    attrValue (setAttrValue [(str "class", str "Part"), (str "referent", str "R1")] (str "referent") []) (str "referent") =
      none := by decide

/-! ## C61: the parser is total -/

/-- **C61.** On every byte string the parser returns: a document or an error. There is no panic, no endless
loop (the bounds of the model's loops are not reached), and the suffix it returns is shorter than the
input. -/
theorem C61_total (s : Bytes) :
    (∃ t suffix, readFrom s = .ok (t, suffix) ∧ suffix.length < s.length) ∨
    (∃ e, readFrom s = .err e ∧ e ≠ .other "out of fuel") := by
  obtain ⟨h1, h2, h3⟩ := readFrom_good s
  cases h : readFrom s with
  | ok x =>
    obtain ⟨t, r⟩ := x
    refine .inl ⟨t, r, rfl, ?_⟩
    have := h3 _ h
    simp only at this
    cases s with
    | nil =>
      exfalso
      revert h
      generalize hq : readFrom [] = q
      have : q.isErr = true := by rw [← hq]; decide
      intro h
      rw [h] at this
      simp [Res.isErr] at this
    | cons b s => simp at this ⊢; omega
  | err e => exact .inr ⟨e, rfl, by rw [h] at h2; simpa using h2⟩
  | panic => exact absurd h h1

/-- Both outcomes occur. -/
example : (readFrom (str "<roblox version=\"4\"></roblox>rest")).isOk ∧ (readFrom (str "<roblox>")).isErr := by
  decide +kernel

/-! ## C62: what the parser accepts -/

/-- **C62.** A document that the parser accepts begins, after whitespace, with a comment or with a tag named
`roblox` having a version of at least 4. If the root is neither a comment nor ignored, it is that tag. -/
theorem C62_root {s suffix : Bytes} {h : Head} {ts : List Tag} (hr : readFrom s = .ok (some ⟨h, ts⟩, suffix))
    (hc : h.comment = false) :
    h.startName = str "roblox" ∧
      ∃ v, attrValue h.attr (str "version") = some v ∧ ∃ n : Int, parseInt 32 v = (n, .none) ∧ 4 ≤ n := by
  have hroot : ∀ hd : Head, checkRoot hd = .ok () → hd.startName = str "roblox" ∧
      ∃ v, attrValue hd.attr (str "version") = some v ∧ ∃ n : Int, parseInt 32 v = (n, .none) ∧ 4 ≤ n := by
    intro hd hok
    unfold checkRoot at hok
    split at hok
    · cases hok
    · rename_i hn
      refine ⟨Classical.not_not.1 hn, ?_⟩
      split at hok
      · cases hok
      · rename_i v hv
        refine ⟨v, hv, ?_⟩
        split at hok
        · rename_i n hp
          split at hok
          · cases hok
          · exact ⟨n, hp, by omega⟩
        · cases hok
  rw [readFrom, show 2 * s.length + 2 = (2 * s.length + 1) + 1 from rfl, readTag] at hr
  split at hr
  · cases hr
  · cases hr
  · rename_i hd s1 heq
    simp only [Res.ok.injEq, Prod.mk.injEq, Option.some.injEq, Tag.mk.injEq] at hr
    obtain ⟨⟨rfl, rfl⟩, rfl⟩ := hr
    -- a comment
    exfalso
    have key : ∀ (x : Bytes) (a : Head) (b : Bytes), readStartTag x = .ok (.comment, a, b) → a.comment = true := by
      intro x a b hx
      unfold readStartTag at hx
      split at hx
      · cases hx
      · split at hx
        · cases hx
        · cases hx
        · obtain ⟨y, -, hy⟩ := Res.bind_eq_ok.1 hx
          simp only [Res.ok.injEq, Prod.mk.injEq] at hy
          rw [← hy.2.1]
        · obtain ⟨⟨nm, r⟩, -, hy⟩ := Res.bind_eq_ok.1 hx
          simp only at hy
          split at hy
          · obtain ⟨z, -, hz⟩ := Res.bind_eq_ok.1 hy
            simp at hz
          · exfalso
            revert hy
            generalize r.length + 1 = fuel
            generalize ({ startName := nm } : Head) = hd
            intro hy
            induction fuel generalizing hd r with
            | zero => simp [readAttrs] at hy
            | succ fuel ih =>
              rw [readAttrs] at hy
              split at hy
              · cases hy
              · split at hy
                · cases hy
                · simp at hy
                · obtain ⟨z, -, hz⟩ := Res.bind_eq_ok.1 hy
                  simp at hz
              · simp at hy
              · obtain ⟨⟨nm', r'⟩, -, hz⟩ := Res.bind_eq_ok.1 hy
                simp only at hz
                split at hz
                · obtain ⟨w, -, hw⟩ := Res.bind_eq_ok.1 hz
                  simp at hw
                · split at hz
                  · split at hz
                    · obtain ⟨⟨w1, w2⟩, -, hw⟩ := Res.bind_eq_ok.1 hz
                      exact ih _ _ hw
                    · cases hz
                  · obtain ⟨w, -, hw⟩ := Res.bind_eq_ok.1 hz
                    simp at hw
                  · cases hz
      · cases hx
    rw [key _ _ _ heq] at hc
    cases hc
  · rename_i state hd s1 hst heq
    simp only [if_true] at hr
    split at hr
    · cases hr
    · cases hr
    · rename_i hok
      have hr0 := hroot hd hok
      split at hr
      · split at hr
        · cases hr
        · cases hr
          exact hr0
      · split at hr
        · cases hr
        · cases hr
        · split at hr
          · cases hr
          · cases hr
          · split at hr
            · cases hr
            · cases hr
            · split at hr
              · cases hr
              · cases hr
                exact hr0

/-- A document without a root tag, one with an old version, and one with another root are rejected; the
example of `C61_total` is accepted. -/
example : (readFrom []).isErr ∧ (readFrom (str "<roblox version=\"3\"></roblox>")).isErr ∧
    (readFrom (str "<robloX version=\"4\"></robloX>")).isErr := by decide +kernel

end Props

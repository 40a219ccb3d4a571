import Verif.Props.XmlDocument
import Verif.Rbxlx.CodecEncode
/-!
# Reading back the tag of a property
-/
namespace Rbxlx
open Go Rbxfile

/-! ## Tags as they are read back -/

mutual
/-- The tags as they are read back. -/
def reread : List Tag → List Tag
  | [] => []
  | t :: ts => rereadOf t :: reread ts
/-- The tag as it is read back. -/
def rereadOf : Tag → Tag
  | ⟨h, ts⟩ => ⟨headBack h, reread ts⟩
end

/-- Fields that can be read back. -/
structure TidyHead (h : Head) : Prop where
  comment : h.comment = false
  empty : h.empty = false
  name : checkName .tag h.startName = true
  first : FirstNot [47#8, 33#8] h.startName
  attr : ∀ a ∈ h.attr, checkName .attr a.1 = true ∧ FirstNot [47#8] a.1
  cdata : ∀ c, h.cdata = some c → NoCDataEnd c

mutual
/-- Tags that can be read back. -/
def Tidy : List Tag → Prop
  | [] => True
  | t :: ts => TidyTag t ∧ Tidy ts
/-- A tag that can be read back. -/
def TidyTag : Tag → Prop
  | ⟨h, ts⟩ => TidyHead h ∧ Tidy ts
end

theorem tidy_append : ∀ (a b : List Tag), Tidy (a ++ b) ↔ Tidy a ∧ Tidy b
  | [], b => by simp [Tidy]
  | t :: a, b => by simp only [List.cons_append, Tidy, tidy_append a b, and_assoc]

theorem tidy_iff (ts : List Tag) : Tidy ts ↔ ∀ t ∈ ts, TidyTag t := by
  induction ts with
  | nil => simp [Tidy]
  | cons t ts ih => simp [Tidy, ih]

theorem reread_append (a b : List Tag) : reread (a ++ b) = reread a ++ reread b := by
  induction a with
  | nil => rfl
  | cons t a ih => simp [reread, ih]

theorem reread_map (ts : List Tag) : reread ts = ts.map rereadOf := by
  induction ts with
  | nil => rfl
  | cons t ts ih => simp [reread, ih]

theorem tidyHead_wf {h : Head} (ht : TidyHead h) : HeadWF h where
  name := ht.first
  attr := fun a ha => (ht.attr a ha).2
  empty := by rw [ht.empty]; simp
  cdata := fun _ => ht.cdata

mutual
theorem tidy_back : ∀ {ts : List Tag}, Tidy ts → tagsBack ts = reread ts ∧ TagsWF ts
  | [], _ => ⟨rfl, trivial⟩
  | t :: ts, h => by
    obtain ⟨h1, h2⟩ := tidyTag_back h.1
    obtain ⟨h3, h4⟩ := tidy_back h.2
    exact ⟨by simp [tagsBack, reread, h1, h3], h2, h4⟩
theorem tidyTag_back : ∀ {t : Tag}, TidyTag t → tagBack t = [rereadOf t] ∧ TagWF t
  | ⟨h, ts⟩, hh => by
    obtain ⟨h1, h2⟩ := tidy_back hh.2
    refine ⟨?_, fun _ _ => ⟨tidyHead_wf hh.1, h2⟩⟩
    simp [tagBack, oneBack, hh.1.comment, hh.1.name, hh.1.empty, rereadOf, h1]
end

theorem attrsBack_tidy : ∀ {attr : List (Bytes × Bytes)}, (∀ a ∈ attr, checkName .attr a.1 = true) →
    attrsBack attr = attr.map fun a => (a.1, Spec.normNewlines a.2)
  | [], _ => rfl
  | (n, v) :: rest, h => by
    have h1 := h (n, v) (by simp)
    simp only at h1
    simp only [attrsBack, h1, if_true, List.map_cons, textBack_norm, List.singleton_append]
    rw [attrsBack_tidy fun a ha => h a (by simp [ha])]

/-! ## Names -/

/-- A name of a tag, decidably. -/
def okName (n : Bytes) : Bool :=
  checkName .tag n && match n with | [] => false | c :: _ => decide (c ≠ 47#8) && decide (c ≠ 33#8)

theorem okName_spec {n : Bytes} (h : okName n = true) : checkName .tag n = true ∧ FirstNot [47#8, 33#8] n := by
  simp only [okName, Bool.and_eq_true] at h
  refine ⟨h.1, ?_⟩
  rintro c t rfl
  simpa using h.2

/-- The attribute `name`. -/
theorem tidy_name (n : Bytes) : ∀ a ∈ [(str "name", n)], checkName .attr a.1 = true ∧ FirstNot [47#8] a.1 := by
  intro a ha
  simp only [List.mem_singleton] at ha
  subst ha
  refine ⟨show checkName .attr (str "name") = true by decide, fun c t h => ?_⟩
  rw [show str "name" = [110#8, 97#8, 109#8, 101#8] by decide] at h
  cases h; decide

/-- A tag without attributes and CDATA. -/
theorem tidy_plain {name text : Bytes} {ni : Bool} {ts : List Tag} (hn : okName name = true) (ht : Tidy ts) :
    TidyTag ⟨{ startName := name, noIndent := ni, text := text }, ts⟩ :=
  ⟨⟨rfl, rfl, (okName_spec hn).1, (okName_spec hn).2, by simp, by simp⟩, ht⟩

theorem tidy_named {t : Tag} (n : Bytes) (h : TidyTag t) : TidyTag (named n t) := by
  obtain ⟨h0, ts⟩ := t
  exact ⟨⟨h.1.comment, h.1.empty, h.1.name, h.1.first, tidy_name n, h.1.cdata⟩, h.2⟩

theorem tidy_leaf {name text : Bytes} (hn : okName name = true) : TidyTag (leaf name text) :=
  tidy_plain (ni := true) hn trivial
theorem tidy_node {name : Bytes} {ts : List Tag} (hn : okName name = true) (ht : Tidy ts) : TidyTag (node name ts) :=
  tidy_plain (ni := false) hn ht

/-! ## Text -/

/-- Text without whitespace: it has no carriage return, and line ends do not change. -/
def Clean (s : Bytes) : Prop := ∀ b ∈ s, 33 ≤ b.toNat

theorem Clean.no_cr {s : Bytes} (h : Clean s) : 13#8 ∉ s := fun hm => by have := h _ hm; simp at this

theorem normText_clean {s : Bytes} (h : Clean s) : textBack true false s = s := by
  rw [textBack_lead, Props.normText_of_no_cr h.no_cr]

theorem clean_uint (n : Nat) : Clean (formatUint n) := fun b hb => by
  have := formatUint_digits n b hb; omega
theorem clean_int (n : Int) : Clean (formatInt n) := fun b hb => by
  have := formatInt_bytes n b hb; omega

theorem content_text (h : Head) (ts : List Tag) (hc : h.cdata = none) :
    getContent (rereadOf ⟨h, ts⟩) = Spec.normText h.text := by
  simp [rereadOf, getContent, headBack, hc, textBack_lead]

theorem content_leaf (name text : Bytes) : getContent (rereadOf (leaf name text)) = Spec.normText text :=
  content_text _ _ rfl

theorem content_clean (name : Bytes) {text : Bytes} (h : Clean text) :
    getContent (rereadOf (leaf name text)) = text := by
  rw [content_leaf, Props.normText_of_no_cr h.no_cr]

theorem content_clean' (name : Bytes) {text : Bytes} (h : Clean text) (ni : Bool) (ts : List Tag) :
    getContent (rereadOf ⟨{ startName := name, noIndent := ni, text := text }, ts⟩) = text := by
  rw [content_text _ _ rfl, Props.normText_of_no_cr h.no_cr]

theorem start_reread (t : Tag) : (rereadOf t).head.startName = t.head.startName := by
  obtain ⟨h, ts⟩ := t; rfl
theorem tags_reread (t : Tag) : (rereadOf t).tags = reread t.tags := by
  obtain ⟨h, ts⟩ := t; rfl
theorem tags_named (n : Bytes) (t : Tag) : (named n t).tags = t.tags := by
  obtain ⟨h, ts⟩ := t; rfl
theorem start_named (n : Bytes) (t : Tag) : (named n t).head.startName = t.head.startName := by
  obtain ⟨h, ts⟩ := t; rfl
theorem content_named (n : Bytes) (t : Tag) : getContent (rereadOf (named n t)) = getContent (rereadOf t) := by
  obtain ⟨h, ts⟩ := t; rfl
theorem text_named (n : Bytes) (t : Tag) : (rereadOf (named n t)).head.text = (rereadOf t).head.text := by
  obtain ⟨h, ts⟩ := t; rfl
theorem cdata_named (n : Bytes) (t : Tag) : (rereadOf (named n t)).head.cdata = (rereadOf t).head.cdata := by
  obtain ⟨h, ts⟩ := t; rfl

theorem attr_named (n : Bytes) (t : Tag) :
    attrValue (rereadOf (named n t)).head.attr (str "name") = some (Spec.normNewlines n) := by
  obtain ⟨h, ts⟩ := t
  show attrValue (attrsBack [(str "name", n)]) (str "name") = _
  rw [attrsBack_tidy fun a ha => (tidy_name n a ha).1]
  simp [attrValue]

/-! ## Components -/

/-- Tags that are exactly the components. -/
inductive Comps (F : FloatText) : List (Bytes × Comp) → List Tag → CompVals → Prop
  | nil : Comps F [] [] []
  | cons {c : Bytes × Comp} {cs t ts v vs} : t.head.startName = c.1 → readComp F c.2 t = .next (some v) →
      Comps F cs ts vs → Comps F (c :: cs) (t :: ts) ((c.1, v) :: vs)

theorem getFromLoop_exact (F : FloatText) (c : List (Bytes × Comp)) (hnd : (c.map Prod.fst).Nodup) :
    ∀ (suf : List (Bytes × Comp)) (ts : List Tag) (vs : CompVals), Comps F suf ts vs →
    ∀ (pre : List (Bytes × Comp)) (vs0 : CompVals), c = pre ++ suf → vs0.map Prod.fst = pre.map Prod.fst →
    getFromLoop F c ts (pre.map Prod.fst).reverse vs0 = (true, vs0 ++ vs) := by
  intro suf ts vs hc
  induction hc with
  | nil =>
    intro pre vs0 he _
    simp [getFromLoop, he]
  | @cons x cs t ts v vs hs hr hc ih =>
    intro pre vs0 he hv
    have hx : x ∈ c := by rw [he]; simp
    have hget : Map.get? c x.1 = some x.2 := Map.get?_of_mem (m := c) hnd (by simpa using hx)
    have hnot : x.1 ∉ pre.map Prod.fst := by
      rw [he, List.map_append, List.nodup_append] at hnd
      intro hm
      exact hnd.2.2 _ hm x.1 (by simp) rfl
    simp only [getFromLoop, hs, hget]
    rw [if_neg (by simpa using hnot)]
    simp only [hr, CompVals.put]
    have hset : Map.set vs0 x.1 v = vs0 ++ [(x.1, v)] := Map.set_new (m := vs0) (by rw [hv]; exact hnot) v
    rw [hset]
    have := ih (pre ++ [x]) (vs0 ++ [(x.1, v)]) (by rw [he]; simp) (by simp [hv])
    simpa using this

theorem getFrom_exact (F : FloatText) {c : List (Bytes × Comp)} (hnd : (c.map Prod.fst).Nodup) {t : Tag}
    {vs : CompVals} (h : Comps F c t.tags vs) : getFrom F c t = (true, vs) := by
  have := getFromLoop_exact F c hnd c t.tags vs h [] [] rfl rfl
  simpa [getFrom] using this

end Rbxlx

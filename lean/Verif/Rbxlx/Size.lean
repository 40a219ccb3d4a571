import Verif.Spec.Size
import Verif.Rbxl.Size
import Verif.Rbxlx.Total
import Verif.Rbxlx.NoPanic
/-!
# The tree that is decoded from a document is no larger than the document

A tag is given a cost, at most the number of bytes it was read from; what is made of a tag is no larger than its cost.
-/
namespace Rbxlx
open Go Rbxfile Spec
open Rbxl (sum_set_old sum_set_new sum_set_le)

/-- What the attributes take at least in a document: the name, `="`, the value and `"`. -/
def attrCost (as : List (Bytes × Bytes)) : Nat := (as.map fun a => 3 + a.1.length + a.2.length).sum

/-- What a tag without the tags in it takes at least: `<`, the name, the attributes, `>`, and the content. -/
def headCost (h : Head) : Nat := 2 + h.startName.length + attrCost h.attr + h.text.length + (h.cdata.getD []).length

mutual
/-- What a tag takes at least. -/
def tagCost : Tag → Nat
  | ⟨h, ts⟩ => headCost h + tagsCost ts
/-- What a list of tags takes at least. -/
def tagsCost : List Tag → Nat
  | [] => 0
  | t :: ts => tagCost t + tagsCost ts
end

theorem tagCost_eq (t : Tag) : tagCost t = headCost t.head + tagsCost t.tags := by
  obtain ⟨h, ts⟩ := t
  rw [tagCost]; rfl

theorem attrCost_snoc (as : List (Bytes × Bytes)) (n v : Bytes) :
    attrCost (as ++ [(n, v)]) = attrCost as + (3 + n.length + v.length) := by
  simp [attrCost]

/-! ## Reading -/

theorem split_length {α : Type} (p : α → Bool) (s : List α) :
    (s.takeWhile p).length + (s.dropWhile p).length = s.length := by
  rw [← List.length_append, List.takeWhile_append_dropWhile]

theorem readName_size {t : NameType} {s n r : Bytes} (h : readName t s = .ok (n, r)) :
    n.length + r.length = s.length := by
  unfold readName at h
  have := split_length (isNameByte t) s
  split at h
  · cases h
  · rename_i b rest heq
    simp only [Res.ok.injEq, Prod.mk.injEq] at h
    obtain ⟨rfl, rfl⟩ := h
    rw [heq] at this; exact this

theorem numericEntity_size {hex : Bool} {lead s x r : Bytes} (h : numericEntity hex lead s = .ok (x, r))
    (hl : 1 ≤ lead.length) : x.length + r.length ≤ lead.length + s.length := by
  simp only [numericEntity] at h
  have := split_length (isEntityDigit hex) s
  split at h
  · cases h
  · rename_i b rest heq
    rw [heq] at this
    simp only [List.length_cons] at this
    split at h
    · split at h <;> simp only [Res.ok.injEq, Prod.mk.injEq] at h <;> obtain ⟨rfl, rfl⟩ := h <;> simp <;> omega
    · simp only [Res.ok.injEq, Prod.mk.injEq] at h
      obtain ⟨rfl, rfl⟩ := h
      simp; omega

theorem readEntity_size {s x r : Bytes} (h : readEntity s = .ok (x, r)) : x.length + r.length ≤ s.length + 1 := by
  unfold readEntity at h
  split at h
  · cases h
  · have := numericEntity_size h (by simp)
    simp at this ⊢; omega
  · have := numericEntity_size h (by simp)
    simp at this ⊢; omega
  · simp only [Res.bind_eq_ok] at h
    obtain ⟨⟨name, rest⟩, h1, h2⟩ := h
    have e1 := readName_size h1
    dsimp only at h2
    split at h2
    · split at h2 <;> simp only [Res.ok.injEq, Prod.mk.injEq] at h2 <;> obtain ⟨rfl, rfl⟩ := h2 <;> simp at e1 ⊢ <;> omega
    · simp only [Res.ok.injEq, Prod.mk.injEq] at h2
      obtain ⟨rfl, rfl⟩ := h2
      simp; omega

theorem textLoop_size (mode : TextMode) : ∀ (fuel : Nat) (b0 b1 : Byte) (out s t r : Bytes),
    textLoop mode fuel b0 b1 out s = .ok (t, r) → t.length + r.length ≤ out.length + s.length
  | 0, _, _, _, _, _, _, h => by cases h
  | fuel + 1, b0, b1, out, [], _, _, h => by cases h
  | fuel + 1, b0, b1, out, b :: s, t, r, h => by
    rw [textLoop] at h
    simp only [List.length_cons]
    split at h
    · simp only [Res.ok.injEq, Prod.mk.injEq] at h
      obtain ⟨rfl, rfl⟩ := h
      simp; omega
    split at h
    · cases h
    split at h
    · simp only [Res.ok.injEq, Prod.mk.injEq] at h
      obtain ⟨rfl, rfl⟩ := h
      simp
    split at h
    · simp only [Res.ok.injEq, Prod.mk.injEq] at h
      obtain ⟨rfl, rfl⟩ := h
      omega
    split at h
    · split at h
      · rename_i x rest heq
        have h1 := readEntity_size heq
        have h2 := textLoop_size mode fuel _ _ _ _ _ _ h
        simp only [List.length_append] at h2; omega
      · cases h
      · cases h
    split at h
    · have h2 := textLoop_size mode fuel _ _ _ _ _ _ h
      simp only [List.length_append, List.length_cons, List.length_nil] at h2; omega
    split at h
    · have h2 := textLoop_size mode fuel _ _ _ _ _ _ h
      omega
    · have h2 := textLoop_size mode fuel _ _ _ _ _ _ h
      simp only [List.length_append, List.length_cons, List.length_nil] at h2; omega

theorem readText_size {mode : TextMode} {s t r : Bytes} (h : readText mode s = .ok (t, r)) :
    t.length + r.length ≤ s.length := by
  have := textLoop_size mode _ _ _ _ _ _ _ h
  simpa using this

theorem readText_quoted_size {s t r : Bytes} (h : readText .quoted s = .ok (t, r)) :
    t.length + r.length + 1 ≤ s.length := by
  have key : ∀ (fuel : Nat) (b0 b1 : Byte) (out s : Bytes),
      textLoop .quoted fuel b0 b1 out s = .ok (t, r) → t.length + r.length + 1 ≤ out.length + s.length := by
    intro fuel
    induction fuel with
    | zero => intro _ _ _ _ h; cases h
    | succ fuel ih =>
      intro b0 b1 out s h
      cases s with
      | nil => cases h
      | cons b s =>
        rw [textLoop] at h
        simp only [List.length_cons]
        split at h
        · simp_all
        split at h
        · cases h
        split at h
        · simp_all
        split at h
        · simp only [Res.ok.injEq, Prod.mk.injEq] at h
          obtain ⟨rfl, rfl⟩ := h
          omega
        split at h
        · split at h
          · rename_i x rest heq
            have h1 := readEntity_size heq
            have h2 := ih _ _ _ _ h
            simp only [List.length_append] at h2; omega
          · cases h
          · cases h
        split at h
        · have h2 := ih _ _ _ _ h
          simp only [List.length_append, List.length_cons, List.length_nil] at h2; omega
        split at h
        · have h2 := ih _ _ _ _ h
          omega
        · have h2 := ih _ _ _ _ h
          simp only [List.length_append, List.length_cons, List.length_nil] at h2; omega
  simpa using key _ _ _ _ _ h

theorem readComment_size : ∀ {s t r : Bytes}, readComment s = .ok (t, r) → t.length + r.length ≤ s.length := by
  intro s
  induction s with
  | nil => intro t r h; cases h
  | cons b s ih =>
    intro t r h
    unfold readComment at h
    split at h
    · cases h
    · rename_i heq
      simp only [Res.ok.injEq, Prod.mk.injEq] at h
      obtain ⟨rfl, rfl⟩ := h
      rw [heq]; simp; omega
    · rename_i heq
      obtain ⟨rfl, rfl⟩ := List.cons.inj heq
      simp only [Res.bind_eq_ok] at h
      obtain ⟨⟨t', r'⟩, h1, h2⟩ := h
      simp only [Res.ok.injEq, Prod.mk.injEq] at h2
      obtain ⟨rfl, rfl⟩ := h2
      have := ih h1
      simp; omega

theorem ignoreStartTag_size {s r : Bytes} (h : ignoreStartTag s = .ok r) : r.length ≤ s.length :=
  (ignoreStartTag_good s).2.2 _ h

/-- What is read after the name of a tag: the rest is shorter by what the attributes take and `>`. -/
theorem readAttrs_size : ∀ (fuel : Nat) (tag : Head) (s : Bytes) (st : StartState) (h : Head) (r : Bytes),
    readAttrs fuel tag s = .ok (st, h, r) →
      r.length ≤ s.length ∧ (st ≠ .ignored → h.startName = tag.startName ∧ h.text = tag.text ∧ h.cdata = tag.cdata ∧
        attrCost h.attr + r.length + 1 ≤ attrCost tag.attr + s.length) := by
  intro fuel
  induction fuel with
  | zero => intro _ _ _ _ _ h; cases h
  | succ fuel ih =>
    intro tag s st h r e
    have hs := skipSpace_length s
    rw [readAttrs] at e
    split at e
    · cases e
    · rename_i s1 heq
      rw [heq] at hs
      simp only [List.length_cons] at hs
      split at e
      · cases e
      · simp only [Res.ok.injEq, Prod.mk.injEq] at e
        obtain ⟨rfl, rfl, rfl⟩ := e
        simp only [List.length_cons] at hs
        refine ⟨by omega, fun _ => ⟨rfl, rfl, rfl, ?_⟩⟩
        dsimp only; omega
      · simp only [Res.bind_eq_ok, Res.ok.injEq, Prod.mk.injEq] at e
        obtain ⟨s2, h1, rfl, rfl, rfl⟩ := e
        have := ignoreStartTag_size h1
        simp only [List.length_cons] at hs
        exact ⟨by omega, fun x => absurd rfl x⟩
    · rename_i s1 heq
      rw [heq] at hs
      simp only [Res.ok.injEq, Prod.mk.injEq] at e
      obtain ⟨rfl, rfl, rfl⟩ := e
      simp only [List.length_cons] at hs
      exact ⟨by omega, fun _ => ⟨rfl, rfl, rfl, by omega⟩⟩
    · simp only [Res.bind_eq_ok] at e
      obtain ⟨⟨name, s2⟩, h1, e⟩ := e
      have e1 := readName_size h1
      dsimp only at e
      split at e
      · simp only [Res.bind_eq_ok, Res.ok.injEq, Prod.mk.injEq] at e
        obtain ⟨s3, h2, rfl, rfl, rfl⟩ := e
        have := ignoreStartTag_size h2
        exact ⟨by omega, fun x => absurd rfl x⟩
      · have hs2 := skipSpace_length s2
        split at e
        · rename_i s3 heq
          rw [heq] at hs2
          simp only [List.length_cons] at hs2
          have hs3 := skipSpace_length s3
          split at e
          · rename_i s4 heq'
            rw [heq'] at hs3
            simp only [List.length_cons] at hs3
            simp only [Res.bind_eq_ok] at e
            obtain ⟨⟨value, s5⟩, h3, e⟩ := e
            have e3 := readText_quoted_size h3
            obtain ⟨g1, g2⟩ := ih _ _ _ _ _ e
            dsimp only at g1 g2
            refine ⟨by omega, fun x => ?_⟩
            obtain ⟨k1, k2, k3, k4⟩ := g2 x
            rw [attrCost_snoc] at k4
            exact ⟨k1, k2, k3, by omega⟩
          · cases e
        · rename_i s3 _ heq
          rw [heq] at hs2
          simp only [List.length_cons] at hs2
          simp only [Res.bind_eq_ok, Res.ok.injEq, Prod.mk.injEq] at e
          obtain ⟨s4, h2, rfl, rfl, rfl⟩ := e
          have := ignoreStartTag_size h2
          exact ⟨by omega, fun x => absurd rfl x⟩
        · cases e

theorem readStartTag_size {s : Bytes} {st : StartState} {h : Head} {r : Bytes} (e : readStartTag s = .ok (st, h, r)) :
    r.length ≤ s.length ∧ (st = .comment → headCost h + r.length ≤ s.length) ∧
      (st = .tag → h.text = [] ∧ h.cdata = none ∧ headCost h + r.length ≤ s.length) := by
  unfold readStartTag at e
  split at e
  · cases e
  · split at e
    · cases e
    · cases e
    · simp only [Res.bind_eq_ok, Res.ok.injEq, Prod.mk.injEq] at e
      obtain ⟨⟨t, s1⟩, h1, rfl, rfl, rfl⟩ := e
      have := readComment_size h1
      simp only [List.length_cons]
      refine ⟨by omega, fun _ => ?_, fun x => by cases x⟩
      simp [headCost, attrCost]; omega
    · simp only [Res.bind_eq_ok] at e
      obtain ⟨⟨name, s1⟩, h1, e⟩ := e
      have e1 := readName_size h1
      simp only [List.length_cons]
      dsimp only at e
      split at e
      · simp only [Res.bind_eq_ok, Res.ok.injEq, Prod.mk.injEq] at e
        obtain ⟨s2, h2, rfl, rfl, rfl⟩ := e
        have := ignoreStartTag_size h2
        exact ⟨by omega, (fun x => (by cases x)), (fun x => (by cases x))⟩
      · obtain ⟨g1, g2⟩ := readAttrs_size _ _ _ _ _ _ e
        dsimp only at g2
        have key : st ≠ .ignored → h.text = [] ∧ h.cdata = none ∧ headCost h + r.length ≤ s1.length + name.length + 1 := by
          intro hne
          obtain ⟨k1, k2, k3, k4⟩ := g2 hne
          refine ⟨k2, k3, ?_⟩
          simp only [headCost, k1, k2, k3]
          simp [attrCost] at k4 ⊢
          omega
        refine ⟨by omega, fun x => ?_, fun x => ?_⟩
        · have := (key (by rw [x]; simp)).2.2; omega
        · obtain ⟨k1, k2, k3⟩ := key (by rw [x]; simp)
          exact ⟨k1, k2, by omega⟩
  · cases e

theorem readCData_size {s : Bytes} {c : Option Bytes} {r : Bytes} (e : readCData s = .ok (c, r)) :
    (c.getD []).length + r.length ≤ s.length := by
  unfold readCData at e
  split at e
  · simp only [Res.bind_eq_ok, Res.ok.injEq, Prod.mk.injEq] at e
    obtain ⟨⟨t, s1⟩, h1, rfl, rfl⟩ := e
    have := readText_size h1
    simp only [List.length_drop] at this
    simp; omega
  · simp only [Res.ok.injEq, Prod.mk.injEq] at e
    obtain ⟨rfl, rfl⟩ := e
    simp

theorem readEndTag_size {s n r : Bytes} (e : readEndTag s = .ok (n, r)) : r.length ≤ s.length := by
  simp only [readEndTag, Res.bind_eq_ok] at e
  obtain ⟨⟨name, s1⟩, h1, e⟩ := e
  have e1 := readName_size h1
  have e2 := skipSpace_length s1
  dsimp only at e
  split at e
  · cases e
  · split at e
    · rename_i heq
      rw [heq] at e2
      simp only [Res.ok.injEq, Prod.mk.injEq] at e
      obtain ⟨rfl, rfl⟩ := e
      simp only [List.length_cons] at e2; omega
    · cases e

theorem tagsCost_toList (t : Option Tag) (ts : List Tag) :
    tagsCost (t.toList ++ ts) = (t.map tagCost).getD 0 + tagsCost ts := by
  cases t with
  | none => simp
  | some t => simp [tagsCost]

/-- A tag costs no more than the bytes it is read from. -/
theorem read_size : ∀ (fuel : Nat),
    (∀ (root : Bool) (s : Bytes) (t : Option Tag) (r : Bytes), readTag fuel root s = .ok (t, r) →
      (t.map tagCost).getD 0 + r.length ≤ s.length) ∧
    (∀ (s : Bytes) (ts : List Tag) (n r : Bytes), readTags fuel s = .ok (ts, n, r) →
      tagsCost ts + r.length ≤ s.length) := by
  intro fuel
  induction fuel with
  | zero =>
    refine ⟨?_, ?_⟩
    · intro root s t r e; rw [readTag] at e; cases e
    · intro s ts n r e; rw [readTags] at e; cases e
  | succ fuel ih =>
    obtain ⟨ih1, ih2⟩ := ih
    refine ⟨?_, ?_⟩
    · intro root s t r e
      rw [readTag] at e
      have hs : (if root = true then skipSpace s else s).length ≤ s.length := by
        split
        · exact skipSpace_length s
        · exact Nat.le_refl _
      split at e
      · cases e
      · cases e
      · rename_i h1
        simp only [Res.ok.injEq, Prod.mk.injEq] at e
        obtain ⟨rfl, rfl⟩ := e
        have := (readStartTag_size h1).2.1 rfl
        simp only [Option.map_some, Option.getD_some, tagCost, tagsCost]; omega
      · rename_i state h s1 hne h1
        obtain ⟨g1, -, g2⟩ := readStartTag_size h1
        split at e
        · cases e
        · cases e
        · split at e
          · simp only [Res.ok.injEq, Prod.mk.injEq] at e
            obtain ⟨rfl, rfl⟩ := e
            split
            · simp; omega
            · rename_i hni
              have hst : state = .tag := by cases state <;> simp_all
              have := (g2 hst).2.2
              simp only [Option.map_some, Option.getD_some, tagCost, tagsCost]; omega
          · have e2 := skipSpace_length s1
            split at e
            · cases e
            · cases e
            · rename_i c s2 h2
              have e3 := readCData_size h2
              have e4 := skipSpace_length s2
              split at e
              · cases e
              · cases e
              · rename_i tx s3 h3
                have e5 := readText_size h3
                split at e
                · cases e
                · cases e
                · rename_i ts en s4 h4
                  have e6 := ih2 _ _ _ _ h4
                  simp only [Res.ok.injEq, Prod.mk.injEq] at e
                  obtain ⟨rfl, rfl⟩ := e
                  split
                  · simp; omega
                  · rename_i hni
                    have hst : state = .tag := by cases state <;> simp_all
                    obtain ⟨k1, k2, k3⟩ := g2 hst
                    simp only [headCost, k1, k2] at k3
                    simp at k3
                    simp only [Option.map_some, Option.getD_some, tagCost, headCost]; omega
    · intro s ts n r e
      rw [readTags] at e
      have hs := skipSpace_length s
      split at e
      · rename_i heq
        rw [heq] at hs
        simp only [List.length_cons] at hs
        split at e
        · cases e
        · cases e
        · rename_i h1
          have := readEndTag_size h1
          simp only [Res.ok.injEq, Prod.mk.injEq] at e
          obtain ⟨rfl, rfl, rfl⟩ := e
          rw [tagsCost]; omega
      · rename_i heq
        rw [heq] at hs
        split at e
        · cases e
        · cases e
        · rename_i h1
          have e1 := ih1 _ _ _ _ h1
          split at e
          · cases e
          · cases e
          · rename_i h2
            have e2 := ih2 _ _ _ _ h2
            simp only [Res.ok.injEq, Prod.mk.injEq] at e
            obtain ⟨rfl, rfl, rfl⟩ := e
            rw [tagsCost_toList]; omega
      · cases e

/-! ## Values -/

theorem tagsCost_mem : ∀ {ts : List Tag} {t : Tag}, t ∈ ts → tagCost t ≤ tagsCost ts
  | [], _, h => by cases h
  | u :: ts, t, h => by
    rw [tagsCost]
    rcases List.mem_cons.1 h with rfl | h
    · omega
    · have := tagsCost_mem h; omega

theorem tagsCost_two : ∀ {ts : List Tag} {a b : Tag}, a ∈ ts → b ∈ ts → a ≠ b → tagCost a + tagCost b ≤ tagsCost ts
  | [], _, _, h, _, _ => by cases h
  | u :: ts, a, b, ha, hb, hn => by
    rw [tagsCost]
    rcases List.mem_cons.1 ha with e | ha1
    · rcases List.mem_cons.1 hb with e' | hb1
      · exact absurd (e.trans e'.symm) hn
      · have := tagsCost_mem hb1; rw [e]; omega
    · rcases List.mem_cons.1 hb with e' | hb1
      · have := tagsCost_mem ha1; rw [e']; omega
      · have := tagsCost_two ha1 hb1 hn; omega

theorem getContent_size (t : Tag) : (getContent t).length + 2 ≤ headCost t.head := by
  unfold getContent headCost
  rcases t.head.cdata with _ | c
  · simp only; omega
  · simp only [Option.getD_some]; omega

theorem readComp_tag {F : FloatText} {k : Comp} {t u : Tag} :
    readComp F k t = .next (some (.tag u)) ∨ (∃ ok, readComp F k t = .stop ok (some (.tag u))) → u = t := by
  have hi : ∀ (r : Int × NumErr) (v : Int → CompVal), (∀ n, v n ≠ .tag u) →
      ¬ (intComp r v = .next (some (.tag u)) ∨ ∃ ok, intComp r v = .stop ok (some (.tag u))) := by
    rintro ⟨n, e⟩ v hv
    cases e <;> simp [intComp, hv]
  cases k with
  | u8 => simp only [readComp]; exact fun h => absurd h (hi _ _ (fun n hn => (by cases hn)))
  | i16 => simp only [readComp]; exact fun h => absurd h (hi _ _ (fun n hn => (by cases hn)))
  | i32 => simp only [readComp]; exact fun h => absurd h (hi _ _ (fun n hn => (by cases hn)))
  | weight => simp only [readComp]; exact fun h => absurd h (hi _ _ (fun n hn => (by cases hn)))
  | f32 => simp [readComp]
  | style =>
    simp only [readComp]
    split <;> simp
  | tag =>
    simp only [readComp]
    rintro (h | ⟨ok, h⟩)
    · simp only [CompRes.next.injEq, Option.some.injEq, CompVal.tag.injEq] at h; exact h.symm
    · cases h

/-- The tags that `getFrom` finds are among those of the tag, with the names looked for. -/
theorem getFromLoop_mem {F : FloatText} {c : List (Bytes × Comp)} {all : List Tag} : ∀ (ts : List Tag) (d : List Bytes) (vs : CompVals),
    (∀ t ∈ ts, t ∈ all) → (∀ n u, vs.tag n = some u → u ∈ all ∧ u.head.startName = n) →
    ∀ n u, (getFromLoop F c ts d vs).2.tag n = some u → u ∈ all ∧ u.head.startName = n := by
  intro ts
  induction ts with
  | nil => intro d vs _ hv; exact hv
  | cons t ts ih =>
    intro d vs hm hv n u
    have hm' : ∀ t ∈ ts, t ∈ all := fun t ht => hm t (List.mem_cons_of_mem _ ht)
    have put : ∀ k v, (readComp F k t = .next v ∨ ∃ ok, readComp F k t = .stop ok v) → ∀ n u,
        (vs.put t.head.startName v).tag n = some u → u ∈ all ∧ u.head.startName = n := by
      intro k v hk n u hu
      by_cases e : n = t.head.startName
      · cases v with
        | none => exact hv n u hu
        | some v =>
          subst e
          simp only [CompVals.put, CompVals.tag, Map.get?_set, if_true] at hu
          cases v with
          | tag w =>
            simp only [Option.some.injEq] at hu
            subst hu
            have := readComp_tag hk
            subst this
            exact ⟨hm _ List.mem_cons_self, rfl⟩
          | _ => cases hu
      · rw [tag_put_ne _ e] at hu
        exact hv n u hu
    rw [getFromLoop]
    split
    · exact ih _ _ hm' hv n u
    · rename_i k _
      split
      · exact ih _ _ hm' hv n u
      · split
        · rename_i v heq
          exact ih _ _ hm' (put k v (.inl heq)) n u
        · rename_i ok v heq
          exact put k v (.inr ⟨ok, heq⟩) n u

theorem getFrom_mem {F : FloatText} {c : List (Bytes × Comp)} {t : Tag} {n : Bytes} {u : Tag}
    (h : (getFrom F c t).2.tag n = some u) : u ∈ t.tags ∧ u.head.startName = n :=
  getFromLoop_mem t.tags [] [] (fun _ h => h) (by intro n u h; simp [CompVals.tag] at h) n u h

theorem contentValue_size {discard : Bool} {t : Tag} {c : Bytes} (h : contentValue discard t = some c) :
    c.length + 2 ≤ tagCost t := by
  have h2 : 2 ≤ headCost t.head := by unfold headCost; omega
  rw [tagCost_eq]
  have h0 : c = [] ∨ ∃ s ∈ t.tags, c = getContent s := by
    unfold contentValue at h
    extract_lets has at h
    generalize has = has at h
    split at h
    · cases h
    · split at h
      · rename_i s ss heq
        rw [heq]
        split at h
        · exact .inl (Option.some.inj h).symm
        · split at h
          · exact .inr ⟨s, List.mem_cons_self, (Option.some.inj h).symm⟩
          · split at h
            · cases h
            · exact .inl (Option.some.inj h).symm
      · split at h
        · cases h
        · exact .inl (Option.some.inj h).symm
  rcases h0 with rfl | ⟨s, hs, rfl⟩
  · simp; omega
  · have h1 := getContent_size s
    have h3 := tagCost_eq s
    have h4 := tagsCost_mem hs
    omega

theorem b64Quanta_size : ∀ (n : Nat) {s v : Bytes}, s.length ≤ n → b64Quanta s = some v → v.length ≤ s.length := by
  intro n
  induction n with
  | zero =>
    intro s v hn h
    have : s = [] := List.length_eq_zero_iff.1 (by omega)
    subst this
    rw [b64Quanta] at h; cases h; simp
  | succ n ih =>
    intro s v hn h
    unfold b64Quanta at h
    split at h
    · cases h; simp
    · rename_i a b c d rest
      simp only [List.length_cons] at hn ⊢
      split at h
      · split at h
        · split at h
          · cases h; simp [b64Bytes]
          · cases h
        · split at h
          · cases h
          · split at h
            · split at h
              · cases h; simp [b64Bytes]
              · cases h
            · split at h
              · rename_i r _ hr
                have := ih (by omega) hr
                cases h; simp [b64Bytes]; omega
              · cases h
      · cases h
    · cases h

theorem b64Decode_size {s v : Bytes} (h : b64Decode s = some v) : v.length ≤ s.length :=
  Nat.le_trans (b64Quanta_size _ (Nat.le_refl _) h) (List.length_filter_le _ _)

theorem scanFloat_size {F : FloatText} {b : Bytes} {f : F32} {r : Bytes} (h : scanFloat F b = some (f, r)) :
    r.length + 1 ≤ b.length := by
  unfold scanFloat at h
  have h1 := length_dropWhile_le (fun c => !isSpace c) b
  split at h
  · cases h
  · rename_i c rest heq
    have hc : isSpace c = true := by
      have := List.head?_dropWhile_not (fun c => !isSpace c) b
      rw [heq] at this
      simpa using this
    split at h
    · cases h
    · simp only [Option.some.injEq, Prod.mk.injEq] at h
      obtain ⟨-, rfl⟩ := h
      rw [List.dropWhile_cons, if_pos hc]
      have := length_dropWhile_le isSpace rest
      rw [heq] at h1
      simp only [List.length_cons] at h1
      omega

theorem scanNumbers_size {F : FloatText} : ∀ (n : Nat) {b : Bytes} {ks : List NumberKeypoint},
    scanNumbers F n b = some ks → ks.length ≤ b.length := by
  intro n
  induction n with
  | zero => intro b ks h; cases h
  | succ n ih =>
    intro b ks h
    cases b with
    | nil => cases h; simp
    | cons x b =>
      simp only [scanNumbers, Option.bind_eq_bind, Option.bind_eq_some_iff, Option.some.injEq] at h
      obtain ⟨⟨_, b1⟩, h1, ⟨_, b2⟩, h2, ⟨_, b3⟩, h3, ks', h4, rfl⟩ := h
      have e1 := scanFloat_size h1
      have e2 := scanFloat_size h2
      have e3 := scanFloat_size h3
      have e4 := ih h4
      dsimp only at *
      simp only [List.length_cons] at *; omega

theorem scanColors_size {F : FloatText} : ∀ (n : Nat) {b : Bytes} {ks : List ColorKeypoint},
    scanColors F n b = some ks → ks.length ≤ b.length := by
  intro n
  induction n with
  | zero => intro b ks h; cases h
  | succ n ih =>
    intro b ks h
    cases b with
    | nil => cases h; simp
    | cons x b =>
      simp only [scanColors, Option.bind_eq_bind, Option.bind_eq_some_iff, Option.some.injEq] at h
      obtain ⟨⟨_, b1⟩, h1, ⟨_, b2⟩, h2, ⟨_, b3⟩, h3, ⟨_, b4⟩, h5, ⟨_, b5⟩, h6, ks', h4, rfl⟩ := h
      have e1 := scanFloat_size h1
      have e2 := scanFloat_size h2
      have e3 := scanFloat_size h3
      have e5 := scanFloat_size h5
      have e6 := scanFloat_size h6
      have e4 := ih h4
      dsimp only at *
      simp only [List.length_cons] at *; omega

section
variable {ρ : Type} {discard : Bool} {v zero : Value ρ} {k : Nat}

theorem invalid_size (hz : valueSize zero ≤ k) (h : invalid discard zero = some v) : valueSize v ≤ k := by
  unfold invalid at h
  split at h
  · cases h
  · cases h; exact hz

theorem numValue_size {α : Type} {r : α × NumErr} {mk : α → Value ρ} (hz : valueSize zero ≤ k)
    (hm : ∀ a, valueSize (mk a) ≤ k) (h : numValue discard r zero mk = some v) : valueSize v ≤ k := by
  unfold numValue at h
  split at h
  · exact invalid_size hz h
  · cases h; exact hm _

theorem compValue_size {F : FloatText} {comps : List (Bytes × Comp)} {mk : CompVals → Value ρ} {t : Tag}
    (hz : valueSize zero ≤ k) (hm : ∀ a, valueSize (mk a) ≤ k) (h : compValue F discard comps zero mk t = some v) :
    valueSize v ≤ k := by
  unfold compValue at h
  simp only at h
  split at h
  · exact invalid_size hz h
  · cases h; exact hm _

theorem pairValue_size {F : FloatText} {n1 n2 : Bytes} {comps : List (Bytes × Comp)} {mk : CompVals → CompVals → Value ρ}
    {t : Tag} (hz : valueSize zero ≤ k) (hm : ∀ a b, valueSize (mk a b) ≤ k)
    (h : pairValue F discard n1 n2 comps zero mk t = some v) : valueSize v ≤ k := by
  unfold pairValue at h
  simp only at h
  split at h
  · exact invalid_size hz h
  · split at h
    · split at h
      · exact invalid_size hz h
      · split at h
        · exact invalid_size hz h
        · cases h; exact hm _ _
    · exact invalid_size hz h

theorem uniqueIdValue_size {text : Bytes} (h : uniqueIdValue discard text = some v) : valueSize v ≤ 1 := by
  unfold uniqueIdValue at h
  split at h
  · exact invalid_size (by simp [valueSize]) h
  · split at h
    · exact invalid_size (by simp [valueSize]) h
    · split at h
      · split at h
        · split at h
          · cases h; simp [valueSize]
          · cases h
        · cases h
      · cases h

theorem physValue_size {F : FloatText} {t : Tag} (h : physValue F discard t = .ok (some v)) : valueSize v ≤ 1 := by
  unfold physValue at h
  simp only at h
  split at h
  · exact invalid_size (by simp [valueSize]) (Res.ok.inj h)
  · split at h
    · cases h
    · split at h
      · exact invalid_size (by simp [valueSize]) (Res.ok.inj h)
      · cases h; simp [valueSize]
      · split at h
        · exact invalid_size (by simp [valueSize]) (Res.ok.inj h)
        · cases h; simp [valueSize]

theorem fontValue_size {F : FloatText} {t : Tag} (h : fontValue F discard t = .ok (some v)) : valueSize v + 1 ≤ tagCost t := by
  have h2 : 2 ≤ headCost t.head := by unfold headCost; omega
  rw [tagCost_eq]
  have hf : ∀ {w : Value ρ}, invalid discard (.font [] 0 0 []) = some w → valueSize w + 1 ≤ headCost t.head + tagsCost t.tags := by
    intro w hw
    have := invalid_size (k := 1) (by simp [valueSize]) hw
    omega
  unfold fontValue at h
  simp only at h
  split at h
  · exact hf (Res.ok.inj h)
  · split at h
    · cases h
    · rename_i fam hfam
      obtain ⟨m1, n1⟩ := getFrom_mem hfam
      split at h
      · exact hf (Res.ok.inj h)
      · rename_i x hx
        have k1 := contentValue_size hx
        split at h
        · have := tagsCost_mem m1
          cases h; simp [valueSize]; omega
        · cases h
        · rename_i c _ hc
          obtain ⟨m2, n2⟩ := getFrom_mem hc
          split at h
          · exact hf (Res.ok.inj h)
          · rename_i y hy
            have k2 := contentValue_size hy
            have hne : fam ≠ c := by
              intro e
              rw [e, n2] at n1
              exact absurd n1 (by decide)
            have := tagsCost_two m1 m2 hne
            cases h; simp [valueSize]; omega

/-- A value is no larger than the tag it is made of. -/
theorem getValue_size {F : FloatText} {t : Tag} {ty : Ty} (h : getValue F discard t ty = .ok (some v)) :
    valueSize v + 1 ≤ tagCost t := by
  have h0 := getContent_size t
  have h1 : valueSize v ≤ 1 + (getContent t).length ∨ valueSize v + 1 ≤ tagCost t := by
    cases ty with
    | binaryString =>
      simp only [getValue, Res.ok.injEq] at h
      left
      split at h
      · exact invalid_size (by simp [valueSize]) h
      · rename_i hb
        have := b64Decode_size hb
        cases h; simp [valueSize]; omega
    | sharedString =>
      simp only [getValue, Res.ok.injEq] at h
      left
      split at h
      · exact invalid_size (by simp [valueSize]) h
      · cases h; simp [valueSize]
    | bool =>
      simp only [getValue, Res.ok.injEq, Option.map_eq_some_iff] at h
      obtain ⟨b, -, rfl⟩ := h
      left; simp [valueSize]
    | content =>
      simp only [getValue, Res.ok.injEq, Option.map_eq_some_iff] at h
      obtain ⟨b, hb, rfl⟩ := h
      have := contentValue_size hb
      right; simp [valueSize]; omega
    | color3 =>
      left
      simp only [getValue] at h
      split at h
      · exact numValue_size (by simp [valueSize]) (by simp [valueSize]) (Res.ok.inj h)
      · exact compValue_size (by simp [valueSize]) (by simp [valueSize]) (Res.ok.inj h)
    | color3uint8 =>
      left
      simp only [getValue] at h
      split at h
      · exact numValue_size (by simp [valueSize]) (by simp [valueSize]) (Res.ok.inj h)
      · exact compValue_size (by simp [valueSize]) (by simp [valueSize]) (Res.ok.inj h)
    | double =>
      simp only [getValue, Res.ok.injEq] at h
      left
      split at h
      · exact invalid_size (by simp [valueSize]) h
      · cases h; simp [valueSize]
    | float =>
      simp only [getValue, Res.ok.injEq] at h
      left
      split at h
      · exact invalid_size (by simp [valueSize]) h
      · cases h; simp [valueSize]
    | protectedString => cases h; left; simp [valueSize]
    | string => cases h; left; simp [valueSize]
    | reference => cases h; left; simp [valueSize]
    | numberSequence =>
      simp only [getValue, Res.ok.injEq] at h
      left
      split at h
      · exact invalid_size (by simp [valueSize]) h
      · rename_i hb
        have := scanNumbers_size _ hb
        cases h; simp [valueSize]; omega
    | colorSequence =>
      simp only [getValue, Res.ok.injEq] at h
      left
      split at h
      · exact invalid_size (by simp [valueSize]) h
      · rename_i hb
        have := scanColors_size _ hb
        cases h; simp [valueSize]; omega
    | numberRange =>
      simp only [getValue, Res.ok.injEq] at h
      left
      split at h
      · exact invalid_size (by simp [valueSize]) h
      · split at h
        · exact invalid_size (by simp [valueSize]) h
        · cases h; simp [valueSize]
    | physicalProperties => left; have := physValue_size h; omega
    | uniqueId => left; have := uniqueIdValue_size (Res.ok.inj h); omega
    | font => right; exact fontValue_size h
    | invalid => cases h
    | optional => cases h
    | ray => left; exact pairValue_size (by simp [valueSize]) (by simp [valueSize]) (Res.ok.inj h)
    | rect => left; exact pairValue_size (by simp [valueSize]) (by simp [valueSize]) (Res.ok.inj h)
    | brickColor => left; exact numValue_size (by simp [valueSize]) (by simp [valueSize]) (Res.ok.inj h)
    | int => left; exact numValue_size (by simp [valueSize]) (by simp [valueSize]) (Res.ok.inj h)
    | int64 => left; exact numValue_size (by simp [valueSize]) (by simp [valueSize]) (Res.ok.inj h)
    | token => left; exact numValue_size (by simp [valueSize]) (by simp [valueSize]) (Res.ok.inj h)
    | _ => left; exact compValue_size (by simp [valueSize]) (by simp [valueSize]) (Res.ok.inj h)
  have := tagCost_eq t
  omega

/-- What the result of `getProperty` adds: a value, or one for what is to be resolved later. -/
def resSize : PropRes ρ → Nat
  | .nothing => 0
  | .value _ v => valueSize v
  | .ref .. => 1
  | .shared .. => 1

theorem propValue_size {F : FloatText} {name : Bytes} {ty : Ty} {opt : Bool} {t : Tag} {r : PropRes ρ}
    (h : propValue F discard name ty opt t = .ok r) : resSize r ≤ tagCost t := by
  have h2 : 2 ≤ tagCost t := by rw [tagCost_eq]; unfold headCost; omega
  unfold propValue at h
  split at h
  · cases h
  · cases h
  · cases h; simp [resSize]
  · rename_i v hv
    have h1 := getValue_size hv
    split at h
    · split at h
      · cases h; cases opt <;> simp [resSize, valueSize] at * <;> omega
      · cases h; simp only [resSize]; omega
    · cases h; simp only [resSize]; omega
    · cases h; cases opt <;> simp [resSize, valueSize] at * <;> omega

theorem getProperty_size {F : FloatText} {t : Tag} {r : PropRes ρ} (h : getProperty F discard t = .ok r) :
    resSize r ≤ tagCost t := by
  have h2 : 2 ≤ tagCost t := by rw [tagCost_eq]; unfold headCost; omega
  unfold getProperty at h
  split at h
  · cases h; simp [resSize]
  · simp only at h
    split at h
    · split at h
      · cases h; simp [resSize]
      · cases h; simp only [resSize, valueSize]; omega
      · rename_i u hu
        have h1 := propValue_size h
        have hm : u ∈ t.tags := by
          unfold getOptional at hu
          split at hu
          · cases hu
          · split at hu
            · simp only at hu
              split at hu
              · exact (getFrom_mem (Option.some.inj hu)).1
              · cases hu
            · cases hu
        have h3 := tagsCost_mem hm
        rw [tagCost_eq]; omega
    · exact propValue_size h

end


/-! ## The tree -/

/-- The size of the instances. -/
def heapSz (h : Heap Nat) : Nat := (h.map fun pi => instSize pi.2).sum

/-- The size of properties. -/
def propsSz (ps : Map Bytes (Value Nat)) : Nat := (ps.map fun nv => valueSize nv.2).sum

/-- The size of the metadata. -/
def metaSz (m : Map Bytes Bytes) : Nat := (m.map fun kv => 8 + kv.1.length + kv.2.length).sum

/-- The size of what the decoder has, with one for each property that is to be resolved. -/
def stateSz (st : DecState) : Nat := heapSz st.heap + st.propRefs.length + st.stringRefs.length

theorem attrValue_size : ∀ {as : List (Bytes × Bytes)} {n v : Bytes}, attrValue as n = some v →
    3 + n.length + v.length ≤ attrCost as
  | [], _, _, h => by cases h
  | a :: as, n, v, h => by
    rw [attrValue] at h
    simp only [attrCost, List.map_cons, List.sum_cons]
    split at h
    · rename_i e
      simp only [Option.some.injEq] at h
      rw [← e, ← h]; omega
    · have := attrValue_size h
      simp only [attrCost] at this; omega

theorem getProps_size {F : FloatText} {discard : Bool} {p : Nat} : ∀ (ts : List Tag) (props : Map Bytes (Value Nat))
    (st : DecState) (props' : Map Bytes (Value Nat)) (st' : DecState),
    getProps F discard p ts props st = .ok (props', st') →
    st'.heap = st.heap ∧ stateSz st' + propsSz props' ≤ stateSz st + propsSz props + tagsCost ts := by
  intro ts
  induction ts with
  | nil => intro props st props' st' h; cases h; exact ⟨rfl, by rw [tagsCost]; omega⟩
  | cons t ts ih =>
    intro props st props' st' h
    rw [getProps] at h
    split at h
    · cases h
    · cases h
    · rename_i r hr
      have h1 := getProperty_size hr
      obtain ⟨g1, g2⟩ := ih _ _ _ _ h
      rw [tagsCost]
      cases r with
      | nothing => exact ⟨g1, by simp only [applyProp] at g2; omega⟩
      | value n v =>
        refine ⟨g1, ?_⟩
        have := sum_set_le (fun nv : Bytes × Value Nat => valueSize nv.2) n v props
        simp only [applyProp, propsSz, resSize] at g2 h1 this ⊢; omega
      | ref n x =>
        refine ⟨g1, ?_⟩
        simp only [applyProp, stateSz, resSize, List.length_append, List.length_cons, List.length_nil] at g2 h1 ⊢; omega
      | shared n x =>
        refine ⟨g1, ?_⟩
        simp only [applyProp, stateSz, resSize, List.length_append, List.length_cons, List.length_nil] at g2 h1 ⊢; omega

/-- What a tag of the root takes, if it is not a Meta tag. -/
def itemCost (t : Tag) : Nat := if t.head.startName = str "Meta" then 0 else tagCost t
/-- What the Meta tags of the root take. -/
def metaCost (t : Tag) : Nat := if t.head.startName = str "Meta" then tagCost t else 0

theorem tagsCost_split : ∀ ts : List Tag, (ts.map itemCost).sum + (ts.map metaCost).sum = tagsCost ts
  | [] => by rw [tagsCost]; rfl
  | t :: ts => by
    have := tagsCost_split ts
    rw [tagsCost, List.map_cons, List.map_cons, List.sum_cons, List.sum_cons]
    have : itemCost t + metaCost t = tagCost t := by unfold itemCost metaCost; split <;> omega
    omega

theorem isSome_set {h : Heap Nat} {p q : Nat} {i : Inst Nat} (hp : (h.get? p).isSome) : ((h.set q i).get? p).isSome := by
  rw [Map.get?_set]
  split
  · rfl
  · exact hp

mutual
theorem getItems_size (F : FloatText) (discard : Bool) : ∀ (ts : List Tag) (parent : Option Nat) (hp : Bool)
    (props : Map Bytes (Value Nat)) (st : DecState) (ids : List Nat) (props' : Map Bytes (Value Nat)) (st' : DecState),
    getItems F discard ts parent hp props st = .ok (ids, props', st') →
    (∀ p, (st.heap.get? p).isSome → (st'.heap.get? p).isSome) ∧
    stateSz st' + 8 * ids.length + propsSz props' ≤ stateSz st + propsSz props + (ts.map itemCost).sum
  | [], parent, hp, props, st, ids, props', st', h => by
    rw [getItems] at h
    cases h
    exact ⟨fun _ h => h, by simp⟩
  | t :: ts, parent, hp, props, st, ids, props', st', h => by
    rw [getItems] at h
    split at h
    · cases h
    · cases h
    · rename_i ids1 hp1 props1 st1 h1
      obtain ⟨a1, a2⟩ := getItem_size F discard t parent hp props st ids1 hp1 props1 st1 h1
      split at h
      · cases h
      · cases h
      · rename_i ids2 props2 st2 h2
        obtain ⟨b1, b2⟩ := getItems_size F discard ts parent hp1 props1 st1 ids2 props2 st2 h2
        simp only [Res.ok.injEq, Prod.mk.injEq] at h
        obtain ⟨rfl, rfl, rfl⟩ := h
        refine ⟨fun p hp => b1 p (a1 p hp), ?_⟩
        simp only [List.length_append, List.map_cons, List.sum_cons]; omega
theorem getItem_size (F : FloatText) (discard : Bool) : ∀ (t : Tag) (parent : Option Nat) (hp : Bool)
    (props : Map Bytes (Value Nat)) (st : DecState) (ids : List Nat) (hp' : Bool) (props' : Map Bytes (Value Nat))
    (st' : DecState), getItem F discard t parent hp props st = .ok (ids, hp', props', st') →
    (∀ p, (st.heap.get? p).isSome → (st'.heap.get? p).isSome) ∧
    stateSz st' + 8 * ids.length + propsSz props' ≤ stateSz st + propsSz props + itemCost t
  | ⟨hd, ts⟩, parent, hp, props, st, ids, hp', props', st', h => by
    have triv : ∀ {hp' props' st'}, Res.ok (([] : List Nat), hp, props, st) = .ok (ids, hp', props', st') →
        (∀ p, (st.heap.get? p).isSome → (st'.heap.get? p).isSome) ∧
        stateSz st' + 8 * ids.length + propsSz props' ≤ stateSz st + propsSz props + itemCost ⟨hd, ts⟩ := by
      intro hp' props' st' h
      cases h
      exact ⟨fun _ h => h, by simp⟩
    rw [getItem.eq_def] at h
    simp only at h
    split at h
    · rename_i hname
      split at h
      · exact triv h
      · rename_i cls hcls
        split at h
        · cases h
        · cases h
        · rename_i kids own st1 h1
          obtain ⟨a1, a2⟩ := getItems_size F discard ts _ _ _ _ _ _ _ h1
          simp only [Res.ok.injEq, Prod.mk.injEq] at h
          obtain ⟨rfl, rfl, rfl, rfl⟩ := h
          have hk := attrValue_size hcls
          have hc : (str "class").length = 5 := by decide
          have hi : (str "Item").length = 4 := by decide
          have hne : itemCost ⟨hd, ts⟩ = tagCost ⟨hd, ts⟩ := by
            unfold itemCost
            rw [if_neg]
            simp only [Tag.head_mk, hname]; decide
          have he : stateSz (enterItem cls (attrValue hd.attr (str "referent")) st) ≤ stateSz st + 4 := by
            have := sum_set_le (fun pi : Nat × Inst Nat => instSize pi.2) st.heap.length
              { className := cls, reference := (attrValue hd.attr (str "referent")).getD [] } st.heap
            simp only [instSize, List.map_nil, List.sum_nil, List.length_nil] at this
            simp only [stateSz, heapSz, enterItem, instSize]; omega
          have hs := tagsCost_split ts
          have hin : (st1.heap.get? st.heap.length).isSome := by
            refine a1 _ ?_
            simp [enterItem, Map.get?_set]
          refine ⟨fun p hp => ?_, ?_⟩
          · refine isSome_set (a1 p ?_)
            exact isSome_set hp
          · obtain ⟨o, ho⟩ := Option.isSome_iff_exists.1 hin
            have := sum_set_old (fun pi : Nat × Inst Nat => instSize pi.2)
              (v := (⟨cls, (attrValue hd.attr (str "referent")).getD [], false, own, kids⟩ : Inst Nat)) ho
            have h4 : 4 ≤ instSize o := by unfold instSize; omega
            have hnil : propsSz [] = 0 := rfl
            have this : heapSz (st1.heap.set st.heap.length ⟨cls, (attrValue hd.attr (str "referent")).getD [], false, own, kids⟩) +
              instSize o = heapSz st1.heap + (4 + propsSz own + 8 * kids.length) := this
            rw [hne, tagCost, headCost, hname]
            simp only [stateSz, List.length_cons, List.length_nil] at a2 he ⊢
            omega
    · split at h
      · rename_i hnp
        split at h
        · exact triv h
        · split at h
          · exact triv h
          · split at h
            · cases h
            · cases h
            · rename_i props1 st1 h1
              obtain ⟨a1, a2⟩ := getProps_size _ _ _ _ _ h1
              simp only [Res.ok.injEq, Prod.mk.injEq] at h
              obtain ⟨rfl, rfl, rfl, rfl⟩ := h
              refine ⟨fun p hp => by rw [a1]; exact hp, ?_⟩
              have hne : itemCost ⟨hd, ts⟩ = tagCost ⟨hd, ts⟩ := by
                unfold itemCost
                rw [if_neg]
                simp only [Tag.head_mk, hnp]; decide
              rw [hne, tagCost]
              simp; omega
      · exact triv h
end

/-- The property that is to be resolved does not exist yet. -/
def absent (h : Heap Nat) (r : PropRef Nat) : Bool :=
  match r.inst with
  | none => false
  | some p =>
    match h.get? p with
    | none => false
    | some i => (i.properties.get? r.property).isNone

/-- Giving a property a value of size one: the size grows by one at most, and only if the property did not exist. -/
theorem setProperty_size (refs : List (PropRef Nat)) (h : Heap Nat) (r : PropRef Nat) (hr : r ∈ refs) (v : Value Nat)
    (hv : valueSize v = 1) :
    heapSz (setProperty h r v) + refs.countP (absent (setProperty h r v)) ≤ heapSz h + refs.countP (absent h) := by
  unfold setProperty
  rcases hi : r.inst with _ | p
  · exact Nat.le_refl _
  · simp only
    rcases hg : h.get? p with _ | i
    · exact Nat.le_refl _
    · simp only
      have h1 := sum_set_old (fun pi : Nat × Inst Nat => instSize pi.2)
        (v := { i with properties := i.properties.set r.property v }) hg
      have hle : ∀ x, absent (h.set p { i with properties := i.properties.set r.property v }) x = true → absent h x = true := by
        intro x hx
        unfold absent at hx ⊢
        generalize x.inst = xi at hx ⊢
        rcases xi with _ | q
        · exact hx
        · simp only [Map.get?_set] at hx ⊢
          by_cases e : q = p
          · rw [if_pos e] at hx
            rw [e, hg]
            simp only [Map.get?_set] at hx
            split at hx
            · cases hx
            · exact hx
          · rw [if_neg e] at hx
            exact hx
      rcases hp : i.properties.get? r.property with _ | o
      · have h2 := sum_set_new (fun nv : Bytes × Value Nat => valueSize nv.2) (v := v) hp
        have h3 : refs.countP (absent (h.set p { i with properties := i.properties.set r.property v })) + 1 ≤
            refs.countP (absent h) := by
          obtain ⟨a, b, rfl⟩ := List.append_of_mem hr
          have k1 := List.countP_mono_left (l := a) fun x _ => hle x
          have k2 := List.countP_mono_left (l := b) fun x _ => hle x
          have k3 : absent h r = true := by unfold absent; rw [hi]; simp only [hg, hp, Option.isNone_none]
          have k4 : absent (h.set p { i with properties := i.properties.set r.property v }) r = false := by
            unfold absent; rw [hi]; simp only [Map.get?_set_self, Option.isNone_some]
          simp only [List.countP_append, List.countP_cons, k3, k4, if_true]
          simp only [Bool.false_eq_true, if_false]
          omega
        simp only [heapSz, instSize] at h1 h2 ⊢
        omega
      · have h2 := sum_set_old (fun nv : Bytes × Value Nat => valueSize nv.2) (v := v) hp
        have h3 := List.countP_mono_left (l := refs) fun x _ => hle x
        have h4 : 1 ≤ valueSize o := by unfold valueSize; split <;> omega
        simp only [heapSz, instSize] at h1 h2 ⊢
        omega

theorem assignShared_size (refs : List (PropRef Nat)) (key value : Bytes) : ∀ (rs : List (PropRef Nat)), (∀ r ∈ rs, r ∈ refs) →
    ∀ h : Heap Nat, heapSz (assignShared rs key value h) + refs.countP (absent (assignShared rs key value h)) ≤
      heapSz h + refs.countP (absent h) := by
  intro rs
  induction rs with
  | nil => intro _ h; exact Nat.le_refl _
  | cons r rs ih =>
    intro hr h
    have h1 := ih (fun x hx => hr x (List.mem_cons_of_mem _ hx))
      (if r.reference = key then setProperty h r (.sharedString value) else h)
    refine Nat.le_trans h1 ?_
    split
    · exact setProperty_size refs h r (hr r List.mem_cons_self) _ rfl
    · exact Nat.le_refl _

theorem sharedTag_size (refs : List (PropRef Nat)) (h : Heap Nat) (t : Tag) :
    heapSz (sharedTag refs h t) + refs.countP (absent (sharedTag refs h t)) ≤ heapSz h + refs.countP (absent h) := by
  unfold sharedTag
  split
  · exact Nat.le_refl _
  · split
    · exact Nat.le_refl _
    · split
      · exact assignShared_size refs _ _ refs (fun _ h => h) h
      · exact Nat.le_refl _

theorem sharedTags_size (refs : List (PropRef Nat)) : ∀ (ts : List Tag) (h : Heap Nat),
    heapSz (ts.foldl (sharedTag refs) h) + refs.countP (absent (ts.foldl (sharedTag refs) h)) ≤
      heapSz h + refs.countP (absent h)
  | [], _ => Nat.le_refl _
  | t :: ts, h => Nat.le_trans (sharedTags_size refs ts (sharedTag refs h t)) (sharedTag_size refs h t)

theorem rootTags_size (refs : List (PropRef Nat)) : ∀ (ts : List Tag) (m : Map Bytes Bytes) (h : Heap Nat),
    metaSz (rootTags refs ts m h).1 ≤ metaSz m + (ts.map metaCost).sum ∧
    heapSz (rootTags refs ts m h).2 + refs.countP (absent (rootTags refs ts m h).2) ≤ heapSz h + refs.countP (absent h)
  | [], m, h => ⟨by simp [rootTags], Nat.le_refl _⟩
  | t :: ts, m, h => by
    rw [rootTags, List.map_cons, List.sum_cons]
    split
    · rename_i hn
      split
      · obtain ⟨a, b⟩ := rootTags_size refs ts m h
        exact ⟨by omega, b⟩
      · rename_i key hk
        obtain ⟨a, b⟩ := rootTags_size refs ts (m.set key t.head.text) h
        refine ⟨?_, b⟩
        have h1 := sum_set_le (fun kv : Bytes × Bytes => 8 + kv.1.length + kv.2.length) key t.head.text m
        have h2 := attrValue_size hk
        have hc : (str "name").length = 4 := by decide
        have hi : (str "Meta").length = 4 := by decide
        have h3 : metaCost t = tagCost t := by unfold metaCost; rw [if_pos hn]
        rw [h3, tagCost_eq, headCost, hn]
        simp only [metaSz] at a h1 ⊢
        omega
    · split
      · obtain ⟨a, b⟩ := rootTags_size refs ts m (t.tags.foldl (sharedTag refs) h)
        exact ⟨by omega, Nat.le_trans b (sharedTags_size refs t.tags h)⟩
      · obtain ⟨a, b⟩ := rootTags_size refs ts m h
        exact ⟨by omega, b⟩

theorem resolve_size (lookup : References Nat) (pr : PropRef Nat) (h : Heap Nat) :
    heapSz (lookup.resolve pr h).2 ≤ heapSz h + 1 := by
  unfold References.resolve
  rcases pr.inst with _ | p
  · simp
  · simp only
    rcases hg : h.get? p with _ | i
    · simp
    · simp only
      have h1 := sum_set_old (fun pi : Nat × Inst Nat => instSize pi.2)
        (v := { i with properties := i.properties.set pr.property (.reference (lookup.at pr.reference)) }) hg
      have h2 := sum_set_le (fun nv : Bytes × Value Nat => valueSize nv.2) pr.property
        (.reference (lookup.at pr.reference)) i.properties
      simp only [heapSz, instSize, valueSize] at h1 h2 ⊢
      omega

theorem resolves_size (lookup : References Nat) : ∀ (prs : List (PropRef Nat)) (h : Heap Nat),
    heapSz (prs.foldl (fun h pr => (lookup.resolve pr h).2) h) ≤ heapSz h + prs.length
  | [], h => by simp
  | pr :: prs, h => by
    have h1 := resolves_size lookup prs (lookup.resolve pr h).2
    have h2 := resolve_size lookup pr h
    simp only [List.foldl_cons, List.length_cons]; omega

theorem codecDecode_size {F : FloatText} {discard : Bool} {t : Tag} {h : Heap Nat} {root : Root Nat}
    (e : codecDecode F discard (some t) = .ok (h, root)) : treeSize h root ≤ tagsCost t.tags := by
  simp only [codecDecode] at e
  split at e
  · cases e
  · cases e
  · rename_i ids props st h1
    obtain ⟨-, a⟩ := getItems_size F discard t.tags none false [] {} ids props st h1
    obtain ⟨b, c⟩ := rootTags_size st.stringRefs t.tags [] st.heap
    have d := resolves_size st.lookup st.propRefs (rootTags st.stringRefs t.tags [] st.heap).2
    have hs := tagsCost_split t.tags
    have hc := List.countP_le_length (p := absent st.heap) (l := st.stringRefs)
    simp only [Res.ok.injEq, Prod.mk.injEq] at e
    obtain ⟨rfl, rfl⟩ := e
    have z1 : stateSz {} = 0 := rfl
    have z2 : propsSz [] = 0 := rfl
    have z3 : metaSz [] = 0 := rfl
    simp only [treeSize]
    simp only [stateSz, heapSz, metaSz] at *
    omega

/-- The tree is no larger than the document. -/
theorem decode_size {F : FloatText} {discard : Bool} {s : Bytes} {h : Heap Nat} {root : Root Nat}
    (e : decode F discard s = .ok (h, root)) : treeSize h root ≤ s.length := by
  unfold decode at e
  split at e
  · cases e
  · cases e
  · rename_i t r h1
    have h2 := (read_size _).1 _ _ _ _ h1
    cases t with
    | none =>
      simp only [codecDecode, Res.ok.injEq, Prod.mk.injEq] at e
      obtain ⟨rfl, rfl⟩ := e
      simp [treeSize]
    | some t =>
      have h3 := codecDecode_size e
      simp only [Option.map_some, Option.getD_some, tagCost_eq] at h2
      omega

end Rbxlx

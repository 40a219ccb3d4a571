import Verif.Rbxlx.Document
/-!
# The reader terminates

The bounds on the number of steps used in the model are never reached, and there is no panic.
-/
namespace Rbxlx
open Go Rbxfile

/-- The result is not that of running out of steps, nor a panic, and what remains is shorter by at least
`k` than `n`. -/
def Good {α : Type} (rest : α → Bytes) (n : Nat) (r : Res α) : Prop :=
  r ≠ .panic ∧ r ≠ .err (.other "out of fuel") ∧ ∀ a, r = .ok a → (rest a).length ≤ n

theorem Good.mono {α : Type} {rest : α → Bytes} {n m : Nat} {r : Res α} (h : Good rest n r) (hm : n ≤ m) :
    Good rest m r := ⟨h.1, h.2.1, fun a ha => Nat.le_trans (h.2.2 a ha) hm⟩

theorem Good.ok {α : Type} {rest : α → Bytes} {n : Nat} {a : α} (h : (rest a).length ≤ n) :
    Good rest n (.ok a) := ⟨by simp, by simp, by intro b hb; cases hb; exact h⟩

theorem Good.err {α : Type} {rest : α → Bytes} {n : Nat} {m : String} (h : m ≠ "out of fuel") :
    Good rest n (.err (.other m)) := ⟨by simp, by simpa using h, by simp⟩

theorem Good.bind {α β : Type} {ra : α → Bytes} {rb : β → Bytes} {n m : Nat} {x : Res α} {f : α → Res β}
    (hx : Good ra n x) (hf : ∀ a, (ra a).length ≤ n → Good rb m (f a)) : Good rb m (x >>= f) := by
  cases x with
  | ok a => exact hf a (hx.2.2 a rfl)
  | err e => exact ⟨by simp, by intro h; exact hx.2.1 (by simpa using h), by simp⟩
  | panic => exact absurd rfl hx.1

theorem length_dropWhile_le {α : Type} (p : α → Bool) (l : List α) : (l.dropWhile p).length ≤ l.length := by
  induction l with
  | nil => simp
  | cons a l ih =>
    rw [List.dropWhile_cons]
    split
    · simp; omega
    · simp

theorem skipSpace_length (s : Bytes) : (skipSpace s).length ≤ s.length := length_dropWhile_le _ _

theorem readName_good (t : NameType) (s : Bytes) : Good Prod.snd s.length (readName t s) := by
  unfold readName
  have := length_dropWhile_le (isNameByte t) s
  split
  · exact .err (by decide)
  · rename_i b rest heq
    rw [heq] at this
    exact .ok this

theorem numericEntity_good (hex : Bool) (lead s : Bytes) :
    Good Prod.snd s.length (numericEntity hex lead s) := by
  simp only [numericEntity]
  have := length_dropWhile_le (isEntityDigit hex) s
  split
  · exact .err (by decide)
  · rename_i b rest heq
    rw [heq] at this
    simp only [List.length_cons] at this
    split
    · split
      · exact .ok (by simp; omega)
      · exact .ok (by simp; omega)
    · exact .ok (by simp; omega)

theorem readEntity_good (s : Bytes) : Good Prod.snd s.length (readEntity s) := by
  unfold readEntity
  split
  · exact .err (by decide)
  · exact (numericEntity_good _ _ _).mono (by simp; omega)
  · exact (numericEntity_good _ _ _).mono (by simp)
  · refine (readName_good .entity _).bind ?_
    rintro ⟨name, rest⟩ h
    simp only at h ⊢
    split
    · rename_i r
      simp only [List.length_cons] at h
      split
      · exact .ok (by simp; omega)
      · exact .ok (by simp; omega)
    · exact .ok h

theorem textLoop_good (mode : TextMode) : ∀ (fuel : Nat) (b0 b1 : Byte) (out s : Bytes), s.length < fuel →
    Good Prod.snd s.length (textLoop mode fuel b0 b1 out s)
  | 0, _, _, _, s, h => by omega
  | fuel + 1, b0, b1, out, [], h => by
    rw [textLoop]
    exact .err (by decide)
  | fuel + 1, b0, b1, out, b :: s, h => by
    simp only [List.length_cons] at h
    have ih : ∀ b0 b1 out, Good Prod.snd (b :: s).length (textLoop mode fuel b0 b1 out s) :=
      fun b0 b1 out => (textLoop_good mode fuel b0 b1 out s (by omega)).mono (by simp)
    rw [textLoop]
    split
    · exact .ok (by simp)
    split
    · exact .err (by decide)
    split
    · exact .ok (by simp)
    split
    · exact .ok (by simp)
    split
    · have hg := readEntity_good s
      split
      · rename_i x rest heq
        have hl : rest.length ≤ s.length := hg.2.2 _ heq
        exact (textLoop_good mode fuel _ _ _ rest (by omega)).mono (by simp; omega)
      · rename_i e heq
        rw [heq] at hg
        exact ⟨by simp, by simpa using hg.2.1, by simp⟩
      · rename_i heq
        exact absurd heq hg.1
    split
    · exact ih _ _ _
    split
    · exact ih _ _ _
    · exact ih _ _ _

theorem readText_good (mode : TextMode) (s : Bytes) : Good Prod.snd s.length (readText mode s) :=
  textLoop_good mode _ _ _ _ s (Nat.lt_succ_self _)

theorem readComment_good : ∀ (s : Bytes), Good Prod.snd s.length (readComment s)
  | [] => .err (by decide)
  | b :: s => by
    have ih := (readComment_good s).bind (rb := Prod.snd) (m := (b :: s).length)
      (f := fun x => Res.ok (b :: x.1, x.2)) (fun a h => .ok (by simp at h ⊢; omega))
    unfold readComment
    split
    · exact .err (by decide)
    · rename_i heq
      rw [heq]
      exact .ok (by simp; omega)
    · rename_i heq
      obtain ⟨rfl, rfl⟩ := List.cons.inj heq
      exact ih

theorem ignoreStartTag_good (s : Bytes) : Good id s.length (ignoreStartTag s) := by
  unfold ignoreStartTag
  have := length_dropWhile_le (fun b => decide (b ≠ 62#8)) s
  split
  · exact .err (by decide)
  · rename_i heq
    rw [heq] at this
    simp only [List.length_cons] at this
    exact .ok (by simp; omega)

theorem readAttrs_good : ∀ (fuel : Nat) (tag : Head) (s : Bytes), s.length < fuel →
    Good (fun x => x.2.2) s.length (readAttrs fuel tag s)
  | 0, _, s, h => by omega
  | fuel + 1, tag, s, h => by
    have hs := skipSpace_length s
    rw [readAttrs]
    split
    · exact .err (by decide)
    · rename_i s1 heq
      rw [heq] at hs
      simp only [List.length_cons] at hs
      split
      · exact .err (by decide)
      · exact .ok (by simp at hs ⊢; omega)
      · simp only [List.length_cons] at hs
        exact (ignoreStartTag_good _).bind fun a ha => .ok (by simp at ha ⊢; omega)
    · rename_i s1 heq
      rw [heq] at hs
      exact .ok (by simp at hs ⊢; omega)
    · rename_i s1 hs1 heq47 heq62
      refine (readName_good .attr _).bind ?_
      rintro ⟨name, r⟩ hr
      simp only at hr ⊢
      split
      · exact (ignoreStartTag_good _).bind fun a ha => .ok (by simp at ha ⊢; omega)
      · have hr' := skipSpace_length r
        split
        · rename_i s2 heq2
          rw [heq2] at hr'
          simp only [List.length_cons] at hr'
          have hr2 := skipSpace_length s2
          split
          · rename_i s3 heq3
            rw [heq3] at hr2
            simp only [List.length_cons] at hr2
            refine (readText_good .quoted s3).bind ?_
            rintro ⟨value, s4⟩ hs4
            simp only at hs4 ⊢
            exact (readAttrs_good fuel _ s4 (by omega)).mono (by omega)
          · exact .err (by decide)
        · rename_i s2 _ heq2
          rw [heq2] at hr'
          simp only [List.length_cons] at hr'
          exact (ignoreStartTag_good _).bind fun a ha => .ok (by simp at ha ⊢; omega)
        · exact .err (by decide)

theorem readStartTag_good (s : Bytes) :
    Good (fun x => x.2.2) (s.length - 1) (readStartTag s) := by
  unfold readStartTag
  split
  · exact .err (by decide)
  · split
    · exact .err (by decide)
    · exact .err (by decide)
    · refine (readComment_good _).bind ?_
      rintro ⟨t, r⟩ hr
      exact .ok (by simp at hr ⊢; omega)
    · refine (readName_good .tag _).bind ?_
      rintro ⟨name, r⟩ hr
      simp only at hr ⊢
      split
      · exact (ignoreStartTag_good _).bind fun a ha => .ok (by simp at ha ⊢; omega)
      · exact (readAttrs_good _ _ _ (Nat.lt_succ_self _)).mono (by simp; omega)
  · exact .err (by decide)

theorem readCData_good (s : Bytes) : Good Prod.snd s.length (readCData s) := by
  unfold readCData
  split
  · refine (readText_good _ _).bind ?_
    rintro ⟨t, r⟩ hr
    exact .ok (by simp at hr ⊢; omega)
  · exact .ok (by simp)

theorem readEndTag_good (s : Bytes) : Good Prod.snd s.length (readEndTag s) := by
  unfold readEndTag
  refine (readName_good .tag _).bind ?_
  rintro ⟨name, r⟩ hr
  simp only at hr ⊢
  split
  · exact .err (by decide)
  · have := skipSpace_length r
    split
    · rename_i heq
      rw [heq] at this
      exact .ok (by simp at this ⊢; omega)
    · exact .err (by decide)

theorem checkRoot_good (h : Head) : Good (fun _ => []) 0 (checkRoot h) := by
  unfold checkRoot
  split
  · exact .err (by decide)
  · split
    · exact .err (by decide)
    · split
      · split
        · exact .err (by decide)
        · exact .ok (by simp)
      · exact .err (by decide)

theorem Good.carry {α β : Type} {ra : α → Bytes} {rb : β → Bytes} {n m : Nat} {e : Err}
    (h : Good ra n (.err e)) : Good rb m (.err e : Res β) :=
  ⟨by simp, by intro hh; exact h.2.1 (by simpa using hh), by simp⟩

mutual
theorem readTag_good : ∀ (fuel : Nat) (root : Bool) (s : Bytes), 2 * s.length + 1 ≤ fuel →
    Good Prod.snd (s.length - 1) (readTag fuel root s)
  | 0, _, _, h => by omega
  | fuel + 1, root, s, h => by
    have hs0 : (if root then skipSpace s else s).length ≤ s.length := by
      split
      · exact skipSpace_length s
      · exact Nat.le_refl _
    rw [readTag]
    have g := readStartTag_good (if root then skipSpace s else s)
    split
    · rename_i heq; exact absurd heq g.1
    · rename_i heq; rw [heq] at g; exact g.carry
    · rename_i hh s1 heq
      have := g.2.2 _ heq
      exact .ok (by simp at this ⊢; omega)
    · rename_i state hh s1 hst heq
      have hs1 := g.2.2 _ heq
      simp only at hs1
      have gr : Good (fun _ => []) 0 (if root then checkRoot hh else Res.ok ()) := by
        split
        · exact checkRoot_good _
        · exact .ok (by simp)
      split
      · rename_i heq; exact absurd heq gr.1
      · rename_i heq; rw [heq] at gr; exact gr.carry
      · split
        · exact .ok (by simp; omega)
        · have gc := readCData_good (skipSpace s1)
          have hl := skipSpace_length s1
          split
          · rename_i heq; exact absurd heq gc.1
          · rename_i heq; rw [heq] at gc; exact gc.carry
          · rename_i c s2 heq2
            have hs2 := gc.2.2 _ heq2
            have gt := readText_good .plain (skipSpace s2)
            have hl2 := skipSpace_length s2
            simp only at hs2
            split
            · rename_i heq; exact absurd heq gt.1
            · rename_i heq; rw [heq] at gt; exact gt.carry
            · rename_i t s3 heq3
              have hs3 := gt.2.2 _ heq3
              simp only at hs3
              by_cases hz : s.length = 0
              · -- no input: the start tag cannot have been read
                exfalso
                have : (if root then skipSpace s else s) = [] := List.length_eq_zero_iff.1 (by omega)
                rw [this] at heq
                simp [readStartTag] at heq
              have gts := readTags_good fuel s3 (by omega)
              split
              · rename_i heq; exact absurd heq gts.1
              · rename_i heq; rw [heq] at gts; exact gts.carry
              · rename_i ts en s4 heq4
                have hs4 := gts.2.2 _ heq4
                simp only at hs4
                exact .ok (by simp; omega)
theorem readTags_good : ∀ (fuel : Nat) (s : Bytes), 2 * s.length + 2 ≤ fuel →
    Good (fun x => x.2.2) s.length (readTags fuel s)
  | 0, _, h => by omega
  | fuel + 1, s, h => by
    have hs := skipSpace_length s
    rw [readTags]
    split
    · rename_i s1 heq
      rw [heq] at hs
      simp only [List.length_cons] at hs
      have g := readEndTag_good s1
      split
      · rename_i heq; exact absurd heq g.1
      · rename_i heq; rw [heq] at g; exact g.carry
      · rename_i heq
        have := g.2.2 _ heq
        exact .ok (by simp at this ⊢; omega)
    · rename_i s1 _ heq
      rw [heq] at hs
      simp only [List.length_cons] at hs
      have g := readTag_good fuel false (60#8 :: s1) (by simp; omega)
      split
      · rename_i heq; exact absurd heq g.1
      · rename_i heq; rw [heq] at g; exact g.carry
      · rename_i t s2 heq2
        have hs2 := g.2.2 _ heq2
        simp at hs2
        have gts := readTags_good fuel s2 (by omega)
        split
        · rename_i heq; exact absurd heq gts.1
        · rename_i heq; rw [heq] at gts; exact gts.carry
        · rename_i ts en s4 heq4
          have hs4 := gts.2.2 _ heq4
          simp only at hs4
          exact .ok (by simp; omega)
    · exact .err (by decide)
end

/-- `ReadFrom` terminates without a panic on every input. -/
theorem readFrom_good (s : Bytes) : Good Prod.snd (s.length - 1) (readFrom s) :=
  readTag_good _ _ _ (by omega)

end Rbxlx

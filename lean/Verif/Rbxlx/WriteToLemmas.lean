import Verif.Rbxlx.WriteTo
import Verif.Rbxlx.CodecEncode
/-!
# Writing to a writer that may fail and the bytes of the document
-/
namespace Rbxlx
open Go

variable {σ ε : Type} (W : Writer σ ε)

namespace EncW

/-- The state of an encoder that has written `out` and is at depth `depth`. The encoder may not yet know of an error of
the buffered writer; an error it knows of is that one. After an error the depth does not matter. -/
structure St (e : EncW σ ε) (out : Bytes) (depth : Int) : Prop where
  wrote : e.bw.Wrote out
  err : e.err.isSome → e.err = e.bw.err
  depth : e.bw.err = none → e.depth = depth

theorem St.more {e : EncW σ ε} {out : Bytes} {d : Int} (h : St e out d) (he : e.bw.err.isSome) (q : Bytes) (d' : Int) :
    St e (out ++ q) d' :=
  ⟨h.wrote.more he q, h.err, fun hn => by rw [hn] at he; cases he⟩

theorem St.bw_err {e : EncW σ ε} {out : Bytes} {d : Int} (h : St e out d) (he : e.err.isSome) : e.bw.err.isSome := by
  rw [← h.err he]; exact he

/-- The encoder knows of the error. -/
def Sync (e : EncW σ ε) : Prop := e.err = e.bw.err

theorem op_st (f : BufWriter σ ε → BufWriter σ ε) (p : Bytes)
    (hf : ∀ b out, BufWriter.Wrote b out → (f b).Wrote (out ++ p) ∧ (b.err.isSome → f b = b))
    {e : EncW σ ε} {out : Bytes} {d : Int} (h : St e out d) :
    St (if e.err.isSome then e else { e with bw := f e.bw, err := (f e.bw).err }) (out ++ p) d ∧
    Sync (if e.err.isSome then e else { e with bw := f e.bw, err := (f e.bw).err }) := by
  by_cases he : e.err.isSome
  · rw [if_pos he]
    exact ⟨h.more (h.bw_err he) _ _, h.err he⟩
  · rw [if_neg he]
    obtain ⟨h1, h2⟩ := hf e.bw out h.wrote
    refine ⟨⟨h1, fun _ => rfl, fun hn => ?_⟩, rfl⟩
    by_cases hb : e.bw.err.isSome
    · rw [show ({ e with bw := f e.bw, err := (f e.bw).err } : EncW σ ε).bw = f e.bw from rfl, h2 hb] at hn
      rw [hn] at hb; cases hb
    · exact h.depth (by simpa using hb)

theorem write_st {e : EncW σ ε} {out : Bytes} {d : Int} (h : St e out d) (p : Bytes) :
    St (e.write W p) (out ++ p) d ∧ Sync (e.write W p) :=
  op_st (fun b => b.write W p) p (fun _ _ hb => BufWriter.write_wrote W hb p) h

theorem writeByte_st {e : EncW σ ε} {out : Bytes} {d : Int} (h : St e out d) (b : Byte) :
    St (e.writeByte W b) (out ++ [b]) d ∧ Sync (e.writeByte W b) :=
  op_st (fun bw => bw.writeByte W b) [b] (fun _ _ hb => BufWriter.writeByte_wrote W hb b) h

theorem writeString_st {e : EncW σ ε} {out : Bytes} {d : Int} (h : St e out d) (p : Bytes) :
    St (e.writeString W p) (out ++ p) d ∧ Sync (e.writeString W p) :=
  op_st (fun b => b.writeString W p) p (fun _ _ hb => BufWriter.writeString_wrote W hb p) h

theorem flush_st {e : EncW σ ε} {out : Bytes} {d : Int} (h : St e out d) :
    St (e.flush W) out d ∧ Sync (e.flush W) := by
  have := op_st (fun b => b.flush W) []
    (fun _ out hb => ⟨by rw [List.append_nil]; exact (BufWriter.flush_wrote W hb).1, (BufWriter.flush_wrote W hb).2.2⟩) h
  rw [List.append_nil] at this
  exact this

/-- After `flush` the buffer is empty unless there was an error. -/
theorem flush_empty {e : EncW σ ε} {out : Bytes} {d : Int} (h : St e out d) (he : (e.flush W).bw.err = none) :
    (e.flush W).bw.buf = [] := by
  unfold flush at he ⊢
  by_cases h1 : e.err.isSome
  · rw [if_pos h1] at he
    have := h.bw_err h1
    rw [he] at this; cases this
  · rw [if_neg h1] at he ⊢
    exact (BufWriter.flush_wrote W h.wrote).2.1 he

theorem bw_foldl_wrote (l : List Bytes) : ∀ {b : BufWriter σ ε} {out : Bytes}, b.Wrote out →
    (l.foldl (fun bw s => bw.writeString W s) b).Wrote (out ++ l.flatten) ∧
    (b.err.isSome → l.foldl (fun bw s => bw.writeString W s) b = b) := by
  induction l with
  | nil => intro b out h; simpa using h
  | cons s l ih =>
    intro b out h
    obtain ⟨h1, h2⟩ := BufWriter.writeString_wrote W h s
    obtain ⟨h3, h4⟩ := ih h1
    refine ⟨by simpa [List.append_assoc] using h3, fun hb => ?_⟩
    rw [List.foldl_cons, h2 hb]
    rw [h2 hb] at h4
    exact h4 hb

theorem writeIndent_err (e : EncW σ ε) (d : Doc) (delta : Int) (notag : Bool) : (e.writeIndent W d delta notag).err = e.err := by
  unfold EncW.writeIndent
  by_cases h0 : d.pre = [] ∧ d.indent = []
  · rw [if_pos h0]
  · rw [if_neg h0]
    cases notag <;> rfl

theorem writeIndent_frozen {e : EncW σ ε} {out : Bytes} {depth : Int} (h : St e out depth) (hb : e.bw.err.isSome) (d : Doc) (delta : Int)
    (notag : Bool) : (e.writeIndent W d delta notag).bw = e.bw := by
  unfold EncW.writeIndent
  by_cases h0 : d.pre = [] ∧ d.indent = []
  · rw [if_pos h0]
  · rw [if_neg h0]
    cases notag with
    | true => rfl
    | false =>
      simp only [Bool.false_eq_true, if_false]
      rw [(BufWriter.writeByte_wrote W h.wrote 10#8).2 hb, (BufWriter.writeString_wrote W h.wrote d.pre).2 hb]
      simp only [ite_self]
      rw [(bw_foldl_wrote W _ h.wrote).2 hb]
      simp only [ite_self]

/-- After a failure of the buffered writer, an indentation changes nothing. -/
theorem writeIndent_failed {e : EncW σ ε} {out : Bytes} {depth : Int} (h : St e out depth) (hb : e.bw.err.isSome) (d : Doc) (delta : Int)
    (notag : Bool) (q : Bytes) (d' : Int) : St (e.writeIndent W d delta notag) (out ++ q) d' := by
  have hf := writeIndent_frozen W h hb d delta notag
  refine ⟨by rw [hf]; exact h.wrote.more hb q, by rw [hf, writeIndent_err]; exact h.err, fun hn => ?_⟩
  rw [hf] at hn
  rw [hn] at hb; cases hb

theorem writeIndent_st {e : EncW σ ε} {out : Bytes} {depth : Int} (h : St e out depth) (d : Doc) (delta : Int) (notag : Bool) :
    St (e.writeIndent W d delta notag) (out ++ (Rbxlx.writeIndent d delta notag depth).1)
      (Rbxlx.writeIndent d delta notag depth).2 := by
  by_cases hb : e.bw.err.isSome
  · exact writeIndent_failed W h hb d delta notag _ _
  unfold EncW.writeIndent Rbxlx.writeIndent
  by_cases h0 : d.pre = [] ∧ d.indent = []
  · rw [if_pos h0, if_pos h0]
    simpa using h
  · rw [if_neg h0, if_neg h0]
    have hbn : e.bw.err = none := by simpa using hb
    have hd := h.depth hbn
    have hen : ¬ e.err.isSome := fun he => hb (h.bw_err he)
    rw [hd]
    cases notag with
    | true =>
      simp only [if_true, List.append_nil]
      exact ⟨h.wrote, h.err, fun _ => rfl⟩
    | false =>
      simp only [Bool.false_eq_true, if_false]
      generalize (if delta < 0 then depth - 1 else if 0 < delta then depth + 1 else depth) = dd
      refine ⟨?_, fun he => absurd he hen, fun _ => rfl⟩
      simp only
      have w1 := (BufWriter.writeByte_wrote W h.wrote 10#8).1
      have w2 : (if d.pre ≠ [] then (e.bw.writeByte W 10#8).writeString W d.pre else e.bw.writeByte W 10#8).Wrote
          (out ++ [10#8] ++ d.pre) := by
        by_cases hp : d.pre = []
        · rw [if_neg (by simp [hp]), hp, List.append_nil]; exact w1
        · rw [if_pos hp]; exact (BufWriter.writeString_wrote W w1 _).1
      have w3 := (bw_foldl_wrote W (List.replicate dd.toNat d.indent) w2).1
      by_cases hi : d.indent = []
      · rw [if_neg (by simp [hi])]
        have : (List.replicate dd.toNat d.indent).flatten = [] := by rw [hi]; simp
        rw [this]
        simpa [List.append_assoc] using w2
      · rw [if_pos hi]
        simpa [List.append_assoc] using w3

theorem escapeOf_spec (lead : Bool) (b : Byte) :
    (if lead && isSpace b then numbered b else escapeByte b) = (escapeOf lead b).getD [b] := by
  unfold escapeOf escapeByte
  repeat' split
  all_goals first | rfl | (simp_all)

theorem escapeOf_none {lead : Bool} {b : Byte} (h : escapeOf lead b = none) : (lead && isSpace b) = false := by
  unfold escapeOf at h
  by_cases h1 : (lead && isSpace b) = true
  · rw [if_pos h1] at h; cases h
  · simpa using h1

theorem escapeLoop_st : ∀ (s : Bytes) (lead : Bool) (pending : Bytes) {e : EncW σ ε} {out : Bytes} {d : Int}, St e out d →
    St (escapeLoop W lead pending s e) (out ++ pending ++ escapeString lead s) d ∧ Sync (escapeLoop W lead pending s e) := by
  intro s
  induction s with
  | nil =>
    intro lead pending e out d h
    rw [escapeLoop, escapeString, List.append_nil]
    exact writeString_st W h pending
  | cons b s ih =>
    intro lead pending e out d h
    rw [escapeLoop, escapeString]
    have hs := escapeOf_spec lead b
    cases ho : escapeOf lead b with
    | none =>
      have hn := escapeOf_none ho
      rw [ho, hn] at hs
      simp only [Bool.false_eq_true, if_false, Option.getD_none] at hs
      rw [hn]
      simp only [Bool.false_eq_true, if_false, hs]
      have := ih false (pending ++ [b]) h
      simpa [List.append_assoc] using this
    | some esc =>
      rw [ho, Option.getD_some] at hs
      simp only
      have h1 := (write_st W (writeString_st W h pending).1 esc).1
      have h2 := ih (lead && isSpace b) [] h1
      have e1 : (if (lead && isSpace b) = true then numbered b ++ escapeString true s else escapeByte b ++ escapeString false s)
          = esc ++ escapeString (lead && isSpace b) s := by
        rw [← hs]
        by_cases hl : (lead && isSpace b) = true
        · rw [if_pos hl, if_pos hl, hl]
        · rw [if_neg hl, if_neg hl]
          simp only [Bool.not_eq_true] at hl
          rw [hl]
      rw [e1]
      simpa [List.append_assoc] using h2

theorem escape_st {e : EncW σ ε} {out : Bytes} {d : Int} (h : St e out d) (lead : Bool) (s : Bytes) :
    St (e.escape W lead s) (out ++ escapeString lead s) d ∧ Sync (e.escape W lead s) := by
  have := escapeLoop_st W s lead [] h
  rw [List.append_nil] at this
  exact this

theorem text_st {e : EncW σ ε} {out : Bytes} {d : Int} (h : St e out d) (t : Bytes) :
    St (e.text W t) (out ++ escapeString true t) d ∧ Sync (e.text W t) :=
  flush_st W (escape_st W h true t).1

theorem cdata_st {e : EncW σ ε} {out : Bytes} {d : Int} (h : St e out d) (c : Option Bytes) :
    St (e.cdata W c) (out ++ writeCData c) d := by
  cases c with
  | none => simpa [EncW.cdata, writeCData] using h
  | some c =>
    have h1 := (writeString_st W h cdataOpen).1
    have h2 := (write_st W h1 c).1
    have h3 := (writeString_st W h2 (str "]]>")).1
    have h4 := (flush_st W h3).1
    simpa only [EncW.cdata, writeCData, List.append_assoc] using h4

theorem attrs_st : ∀ (l : List (Bytes × Bytes)) {e : EncW σ ε} {out : Bytes} {d : Int}, St e out d →
    St (e.attrs W l) (out ++ writeAttrs l) d := by
  intro l
  induction l with
  | nil => intro e out d h; simpa [EncW.attrs, writeAttrs] using h
  | cons nv l ih =>
    obtain ⟨name, value⟩ := nv
    intro e out d h
    rw [EncW.attrs, writeAttrs]
    by_cases hc : checkName .attr name = true
    · rw [if_pos hc, if_pos hc]
      have h1 := (writeByte_st W h 32#8).1
      have h2 := (writeString_st W h1 name).1
      have h3 := (writeByte_st W h2 61#8).1
      have h4 := (writeByte_st W h3 34#8).1
      have h5 := (escape_st W h4 false value).1
      have h6 := (writeByte_st W h5 34#8).1
      have := ih h6
      simpa [List.append_assoc] using this
    · rw [if_neg hc, if_neg hc, List.nil_append]
      exact ih h

/-- The result of `encodeTag` fits what the writer of documents does: `w` is what is written, the depth, and whether the
tag is written. -/
structure Good (out : Bytes) (r : Int × EncW σ ε) (w : Bytes × Int × Bool) : Prop where
  st : St r.2 (out ++ w.1) w.2.1
  ret : r.2.bw.err = none → r.1 = if w.2.2 then 1 else 0
  fail : r.1 < 0 → r.2.err.isSome

theorem Good.early {e : EncW σ ε} {out p : Bytes} {d : Int} (h : St e (out ++ p) d) (he : e.err.isSome) (q : Bytes) (d' : Int) (b : Bool) :
    Good out (-1, e) (p ++ q, d', b) := by
  have hb := h.bw_err he
  refine ⟨?_, fun hn => ?_, fun _ => he⟩
  · have := h.more hb q d'
    rwa [List.append_assoc] at this
  · simp only at hn; rw [hn] at hb; cases hb

/-- The loop over the sub-tags fits. -/
structure KidsGood (out : Bytes) (r : Bool × EncW σ ε) (k : Bytes × Int) : Prop where
  st : St r.2 (out ++ k.1) k.2
  ret : r.2.bw.err = none → r.1 = true
  fail : r.1 = false → r.2.err.isSome

theorem body_good (d : Doc) (noTags noindent : Bool) (h : Head) (hasTags : Bool) (kids : EncW σ ε → Bool × EncW σ ε)
    (kids' : Int → Bytes × Int) (hk : ∀ e out depth, St e out depth → KidsGood out (kids e) (kids' depth))
    {e : EncW σ ε} {out start : Bytes} {depth : Int} (hs : St e (out ++ start) depth) :
    Good out (e.body W d noTags noindent h hasTags kids)
      (let i := if !noindent && !h.noIndent && hasTags then
          (if noTags then Rbxlx.writeIndent d 0 true depth else Rbxlx.writeIndent d 1 false depth)
        else ([], depth)
      let k := kids' i.2
      (start ++ writeCData h.cdata ++ i.1 ++ escapeString true h.text ++ k.1 ++
        (if noTags then [] else [60#8, 47#8] ++ writtenEnd h ++ [62#8]), k.2, true)) := by
  have s1 := cdata_st W hs h.cdata
  unfold body
  simp only
  generalize hi : (if !noindent && !h.noIndent && hasTags then
          (if noTags then Rbxlx.writeIndent d 0 true depth else Rbxlx.writeIndent d 1 false depth)
        else ([], depth)) = i
  generalize hlast : (if noTags then [] else [60#8, 47#8] ++ writtenEnd h ++ [62#8]) = last
  by_cases hc : (h.cdata.isSome && (e.cdata W h.cdata).err.isSome) = true
  · rw [if_pos hc]
    rw [Bool.and_eq_true] at hc
    have := Good.early (q := i.1 ++ escapeString true h.text ++ (kids' i.2).1 ++ last) (d' := (kids' i.2).2) (b := true)
      (p := start ++ writeCData h.cdata) (by rw [← List.append_assoc]; exact s1) hc.2
    simpa only [List.append_assoc] using this
  · rw [if_neg hc]
    have s2 : St (if !noindent && !h.noIndent && hasTags then
        (if noTags then (e.cdata W h.cdata).writeIndent W d 0 true else (e.cdata W h.cdata).writeIndent W d 1 false) else e.cdata W h.cdata)
        (out ++ start ++ writeCData h.cdata ++ i.1) i.2 := by
      rw [← hi]
      by_cases hx : (!noindent && !h.noIndent && hasTags) = true
      · rw [if_pos hx, if_pos hx]
        cases noTags with
        | true => exact writeIndent_st W s1 d 0 true
        | false => exact writeIndent_st W s1 d 1 false
      · rw [if_neg hx, if_neg hx, List.append_nil]
        exact s1
    generalize (if !noindent && !h.noIndent && hasTags then
        (if noTags then (e.cdata W h.cdata).writeIndent W d 0 true else (e.cdata W h.cdata).writeIndent W d 1 false) else e.cdata W h.cdata) = e2 at s2
    have s3 := (text_st W s2 h.text).1
    generalize e2.text W h.text = e3 at s3
    by_cases he : e3.err.isSome
    · rw [if_pos he]
      have := Good.early (q := (kids' i.2).1 ++ last) (d' := (kids' i.2).2) (b := true)
        (p := start ++ writeCData h.cdata ++ i.1 ++ escapeString true h.text) (by simpa only [List.append_assoc] using s3) he
      simpa only [List.append_assoc] using this
    · rw [if_neg he]
      have hkg := hk e3 _ _ s3
      rcases hr : kids e3 with ⟨ok, e4⟩
      rw [hr] at hkg
      cases ok with
      | false =>
        have := Good.early (q := last) (d' := (kids' i.2).2) (b := true)
          (p := start ++ writeCData h.cdata ++ i.1 ++ escapeString true h.text ++ (kids' i.2).1)
          (by simpa only [List.append_assoc] using hkg.st) (hkg.fail rfl)
        simpa only [List.append_assoc] using this
      | true =>
        simp only
        cases noTags with
        | true =>
          simp only [if_true] at hlast ⊢
          rw [← hlast, List.append_nil]
          refine ⟨by simpa only [List.append_assoc] using hkg.st, fun _ => rfl, fun hlt => ?_⟩
          exact absurd hlt (by simp)
        | false =>
          simp only [Bool.false_eq_true, if_false] at hlast ⊢
          have t1 := (writeByte_st W hkg.st 60#8).1
          have t2 := (writeByte_st W t1 47#8).1
          have t3 := (writeString_st W t2 (writtenEnd h)).1
          have t4 := (writeByte_st W t3 62#8).1
          have t5 := (flush_st W t4).1
          generalize ((((e4.writeByte W 60#8).writeByte W 47#8).writeString W (writtenEnd h)).writeByte W 62#8).flush W = e5 at t5
          have t6 : St e5 (out ++ (start ++ writeCData h.cdata ++ i.1 ++ escapeString true h.text ++ (kids' i.2).1 ++ last)) (kids' i.2).2 := by
            rw [← hlast]
            simpa only [List.append_assoc, List.cons_append, List.nil_append] using t5
          by_cases he5 : e5.err.isSome
          · rw [if_pos he5]
            have := Good.early (q := []) (d' := (kids' i.2).2) (b := true) t6 he5
            rwa [List.append_nil] at this
          · rw [if_neg he5]
            exact ⟨t6, fun _ => rfl, fun hlt => absurd hlt (by simp)⟩

theorem tag_good (d : Doc) (noTags noindent : Bool) (h : Head) (hasTags : Bool) (kids : EncW σ ε → Bool × EncW σ ε)
    (kids' : Int → Bytes × Int) (hk : ∀ e out depth, St e out depth → KidsGood out (kids e) (kids' depth))
    {e : EncW σ ε} {out : Bytes} {depth : Int} (hs : St e out depth) :
    Good out (e.tag W d noTags noindent h hasTags kids) (writeTag d noTags noindent depth h hasTags kids') := by
  have hs0 : St e (out ++ []) depth := by rw [List.append_nil]; exact hs
  unfold tag writeTag
  by_cases he : e.err.isSome
  · rw [if_pos he]
    have := fun w : Bytes × Int × Bool => Good.early (q := w.1) (d' := w.2.1) (b := w.2.2) hs0 he
    simp only [List.nil_append] at this
    exact this _
  · rw [if_neg he]
    by_cases hc : h.comment = true
    · rw [if_pos hc, if_pos hc]
      simp only
      have s1 := (writeString_st W hs (str "<!--")).1
      generalize e.writeString W (str "<!--") = e1 at s1
      by_cases h1 : e1.err.isSome
      · rw [if_pos h1, List.append_assoc]
        exact Good.early s1 h1 _ _ _
      · rw [if_neg h1]
        have s2 := (text_st W s1 h.text).1
        generalize e1.text W h.text = e2 at s2
        by_cases h2 : e2.err.isSome
        · rw [if_pos h2]
          exact Good.early (by rw [← List.append_assoc]; exact s2) h2 _ _ _
        · rw [if_neg h2]
          have s3 := (writeString_st W s2 (str "-->")).1
          generalize e2.writeString W (str "-->") = e3 at s3
          have s3' : St e3 (out ++ (str "<!--" ++ escapeString true h.text ++ str "-->")) depth := by
            simpa only [List.append_assoc] using s3
          by_cases h3 : e3.err.isSome
          · rw [if_pos h3]
            have := Good.early s3' h3 [] depth true
            rwa [List.append_nil] at this
          · rw [if_neg h3]
            exact ⟨s3', fun _ => rfl, fun hlt => absurd hlt (by simp)⟩
    · rw [if_neg hc, if_neg hc]
      cases noTags with
      | true =>
        simp only [if_true, Bool.not_true, Bool.false_and, Bool.false_eq_true, if_false, List.nil_append]
        have := body_good W d true noindent h hasTags kids kids' hk hs0
        simpa only [List.nil_append, if_true] using this
      | false =>
        simp only [Bool.false_eq_true, if_false, Bool.not_false, Bool.true_and]
        by_cases hn : checkName .tag h.startName = true
        · rw [hn]
          simp only [Bool.not_true, Bool.false_eq_true, if_false]
          have s1 := (writeByte_st W hs 60#8).1
          have s2 := (writeString_st W s1 h.startName).1
          have s3 := attrs_st W h.attr s2
          generalize ((e.writeByte W 60#8).writeString W h.startName).attrs W h.attr = e3 at s3
          by_cases hem : h.empty = true
          · rw [if_pos hem, if_pos hem]
            have s4 := (writeByte_st W s3 47#8).1
            have s5 := (writeByte_st W s4 62#8).1
            have s6 := (flush_st W s5).1
            generalize ((e3.writeByte W 47#8).writeByte W 62#8).flush W = e6 at s6
            have s7 : St e6 (out ++ (60#8 :: h.startName ++ writeAttrs h.attr ++ [47#8, 62#8])) depth := by
              simpa only [List.append_assoc, List.cons_append, List.nil_append] using s6
            by_cases h6 : e6.err.isSome
            · rw [if_pos h6]
              have := Good.early s7 h6 [] depth true
              rwa [List.append_nil] at this
            · rw [if_neg h6]
              exact ⟨s7, fun _ => rfl, fun hlt => absurd hlt (by simp)⟩
          · rw [if_neg hem, if_neg hem]
            have s4 := (writeByte_st W s3 62#8).1
            have s5 := (flush_st W s4).1
            generalize (e3.writeByte W 62#8).flush W = e5 at s5
            have s7 : St e5 (out ++ (60#8 :: h.startName ++ writeAttrs h.attr ++ [62#8])) depth := by
              simpa only [List.append_assoc, List.cons_append, List.nil_append] using s5
            by_cases h6 : e5.err.isSome
            · rw [if_pos h6]
              simp only [List.append_assoc]
              rw [← List.append_assoc (60#8 :: h.startName), ← List.append_assoc (60#8 :: h.startName ++ writeAttrs h.attr)]
              exact Good.early s7 h6 _ _ _
            · rw [if_neg h6]
              have := body_good W d false noindent h hasTags kids kids' hk s7
              simpa only [Bool.false_eq_true, if_false] using this
        · simp only [Bool.not_eq_true] at hn
          rw [hn]
          simp only [Bool.not_false, if_true]
          exact ⟨hs0, fun _ => rfl, fun hlt => absurd hlt (by simp)⟩

theorem after_st (d : Doc) (noTags ni last : Bool) {e : EncW σ ε} {out : Bytes} {depth : Int} (b : Bytes) (hs : St e out depth) :
    St (e.after W d noTags ni last) (out ++ (writeAfter d noTags ni last (b, depth, true)).1)
      (writeAfter d noTags ni last (b, depth, true)).2 := by
  unfold after writeAfter
  simp only [Bool.true_and]
  cases ni with
  | true => simpa using hs
  | false =>
    simp only [Bool.not_false, if_true]
    cases last with
    | false => exact writeIndent_st W hs d 0 false
    | true =>
      cases noTags with
      | false => exact writeIndent_st W hs d (-1) false
      | true => exact writeIndent_st W hs d 0 true

mutual
theorem tags_good (d : Doc) (noTags ni : Bool) (ts : List Tag) (e : EncW σ ε) (out : Bytes) (depth : Int) (hs : St e out depth) :
    KidsGood out (tags W d noTags ni ts e) (writeTags d noTags ni depth ts) := by
  cases ts with
  | nil =>
    rw [tags, writeTags]
    exact ⟨by simpa using hs, fun _ => rfl, nofun⟩
  | cons t rest =>
    rw [tags, writeTags]
    have h1 := sub_good d ni t e out depth hs
    rcases hr : sub W d ni t e with ⟨r, e1⟩
    rw [hr] at h1
    simp only
    generalize hw : writeSub d ni depth t = w at h1
    obtain ⟨wb, wd, wf⟩ := w
    simp only
    by_cases hneg : r < 0
    · rw [if_pos hneg]
      have he := h1.fail hneg
      have hb := h1.st.bw_err he
      refine ⟨?_, fun hn => ?_, fun _ => he⟩
      · have := h1.st.more hb ((writeAfter d noTags ni rest.isEmpty (wb, wd, wf)).1 ++
          (writeTags d noTags ni (writeAfter d noTags ni rest.isEmpty (wb, wd, wf)).2 rest).1)
          (writeTags d noTags ni (writeAfter d noTags ni rest.isEmpty (wb, wd, wf)).2 rest).2
        simpa only [List.append_assoc] using this
      · simp only at hn hb; rw [hn] at hb; cases hb
    · rw [if_neg hneg]
      have key : St (if r = 0 then e1 else e1.after W d noTags ni rest.isEmpty)
          (out ++ wb ++ (writeAfter d noTags ni rest.isEmpty (wb, wd, wf)).1)
          (writeAfter d noTags ni rest.isEmpty (wb, wd, wf)).2 := by
        have hst : St e1 (out ++ wb) wd := h1.st
        by_cases hb : e1.bw.err.isSome
        · by_cases h0 : r = 0
          · rw [if_pos h0]
            exact hst.more hb _ _
          · rw [if_neg h0]
            unfold after
            repeat' split
            all_goals first | exact writeIndent_failed W hst hb d _ _ _ _ | exact hst.more hb _ _
        · have hbn : e1.bw.err = none := by simpa using hb
          have hret := h1.ret hbn
          simp only at hret
          cases wf with
          | false =>
            simp only [Bool.false_eq_true, if_false] at hret
            rw [if_pos hret]
            simpa [writeAfter] using hst
          | true =>
            simp only [if_true] at hret
            rw [if_neg (by rw [hret]; decide)]
            exact after_st W d noTags ni rest.isEmpty wb hst
      have h2 := tags_good d noTags ni rest _ _ _ key
      refine ⟨?_, h2.ret, h2.fail⟩
      have := h2.st
      simpa only [List.append_assoc] using this
theorem sub_good (d : Doc) (ni : Bool) (t : Tag) (e : EncW σ ε) (out : Bytes) (depth : Int) (hs : St e out depth) :
    Good out (sub W d ni t e) (writeSub d ni depth t) := by
  obtain ⟨h, ts⟩ := t
  rw [sub, writeSub]
  exact tag_good W d false ni h (!ts.isEmpty) _ _ (fun e out depth hs => tags_good d false (ni || h.noIndent) ts e out depth hs) hs
end

end EncW

/-- Every run of `WriteTo` delivers the bytes of the document. -/
theorem writeToW_delivered (d : Doc) (s : σ) :
    Spec.Delivered (writeTo d) (writeToW W d s).1 (writeToW W d s).2 := by
  unfold writeToW writeTo
  cases d.root with
  | none => exact ⟨rfl, by simp⟩
  | some t =>
    obtain ⟨h, ts⟩ := t
    simp only
    have s0 : EncW.St (⟨⟨⟨s, []⟩, [], none⟩, 0, none⟩ : EncW σ ε) [] 0 := by
      refine ⟨(BufWriter.wrote_none rfl).2 ⟨Nat.zero_le _, rfl, by simp⟩, by simp, fun _ => rfl⟩
    have s1 := (EncW.writeString_st W s0 d.pre).1
    rw [List.nil_append] at s1
    generalize (EncW.writeString W (⟨⟨⟨s, []⟩, [], none⟩, 0, none⟩ : EncW σ ε) d.pre) = e1 at s1
    have g := EncW.tag_good W d d.excludeRoot h.noIndent h (!ts.isEmpty)
      (fun e => EncW.tags W d d.excludeRoot (h.noIndent || h.noIndent) ts e)
      (fun depth => writeTags d d.excludeRoot (h.noIndent || h.noIndent) depth ts)
      (fun e out depth hs => EncW.tags_good W d d.excludeRoot (h.noIndent || h.noIndent) ts e out depth hs) s1
    generalize writeTag d d.excludeRoot h.noIndent 0 h (!ts.isEmpty)
      (fun depth => writeTags d d.excludeRoot (h.noIndent || h.noIndent) depth ts) = w at g
    rcases hr : EncW.tag W d d.excludeRoot h.noIndent h (!ts.isEmpty)
      (fun e => EncW.tags W d d.excludeRoot (h.noIndent || h.noIndent) ts e) e1 with ⟨r, e2⟩
    rw [hr] at g
    simp only
    by_cases hneg : r < 0
    · rw [if_pos hneg]
      have he := g.fail hneg
      obtain ⟨er, hx⟩ := Option.isSome_iff_exists.1 he
      simp only at hx ⊢
      have hbw : e2.bw.err = some er := by rw [← hx]; exact (g.st.err he).symm
      have := g.st.more (by simp only [hbw, Option.isSome_some]) d.suffix 0
      have hw := ((BufWriter.wrote_some hbw).1 this.wrote).2
      rw [hx]
      exact hw
    · rw [if_neg hneg]
      simp only
      have s2 := (EncW.writeString_st W g.st d.suffix).1
      have s3 := EncW.flush_st W s2
      have hemp := EncW.flush_empty W s2
      generalize (EncW.writeString W (r, e2).2 d.suffix).flush W = e3 at s3 hemp
      obtain ⟨s3, hsync⟩ := s3
      unfold EncW.Sync at hsync
      rw [hsync]
      cases hb : e3.bw.err with
      | none =>
        obtain ⟨-, a1, a2⟩ := (BufWriter.wrote_none hb).1 s3.wrote
        rw [hemp hb, List.append_nil] at a1
        exact ⟨a1, a2⟩
      | some er => exact ((BufWriter.wrote_some hb).1 s3.wrote).2

/-! ### The calls are those of the writer -/

namespace EncW

/-- The calls recorded are calls of the writer. -/
def Honest (s : σ) (e : EncW σ ε) : Prop := BufWriter.Honest W s e.bw

variable {W} {s : σ}

theorem Honest.op {e : EncW σ ε} (h : Honest W s e) {f : BufWriter σ ε → BufWriter σ ε} (hf : ∀ b, BufWriter.Honest W s b → BufWriter.Honest W s (f b)) :
    Honest W s (if e.err.isSome then e else { e with bw := f e.bw, err := (f e.bw).err }) := by
  split
  · exact h
  · exact hf _ h

theorem Honest.write {e : EncW σ ε} (h : Honest W s e) (p : Bytes) : Honest W s (e.write W p) :=
  h.op (f := fun b => b.write W p) (fun _ hb => BufWriter.write_honest W hb p)
theorem Honest.writeByte {e : EncW σ ε} (h : Honest W s e) (b : Byte) : Honest W s (e.writeByte W b) :=
  h.op (f := fun bw => bw.writeByte W b) (fun _ hb => BufWriter.writeByte_honest W hb b)
theorem Honest.writeString {e : EncW σ ε} (h : Honest W s e) (p : Bytes) : Honest W s (e.writeString W p) :=
  h.op (f := fun b => b.writeString W p) (fun _ hb => BufWriter.writeString_honest W hb p)
theorem Honest.flush {e : EncW σ ε} (h : Honest W s e) : Honest W s (e.flush W) :=
  h.op (f := fun b => b.flush W) (fun _ hb => BufWriter.flush_honest W hb)

theorem Honest.writeIndent {e : EncW σ ε} (h : Honest W s e) (d : Doc) (delta : Int) (notag : Bool) :
    Honest W s (e.writeIndent W d delta notag) := by
  unfold EncW.writeIndent
  split
  · exact h
  · have hfold : ∀ (l : List Bytes) (b : BufWriter σ ε), BufWriter.Honest W s b →
        BufWriter.Honest W s (l.foldl (fun bw s => bw.writeString W s) b) := by
      intro l
      induction l with
      | nil => intro b hb; exact hb
      | cons x l ih => intro b hb; exact ih _ (BufWriter.writeString_honest W hb x)
    have h1 := BufWriter.writeByte_honest W h 10#8
    have h2 : BufWriter.Honest W s (if d.pre ≠ [] then (e.bw.writeByte W 10#8).writeString W d.pre else e.bw.writeByte W 10#8) := by
      split
      · exact BufWriter.writeString_honest W h1 _
      · exact h1
    cases notag with
    | true => exact h
    | false =>
      simp only [Bool.false_eq_true, if_false]
      unfold Honest
      simp only
      split
      · exact hfold _ _ h2
      · exact h2

theorem Honest.escapeLoop : ∀ (l : Bytes) (lead : Bool) (pending : Bytes) {e : EncW σ ε}, Honest W s e →
    Honest W s (EncW.escapeLoop W lead pending l e) := by
  intro l
  induction l with
  | nil => intro lead pending e h; exact h.writeString _
  | cons b l ih =>
    intro lead pending e h
    rw [EncW.escapeLoop]
    split
    · exact ih _ _ h
    · exact ih _ _ ((h.writeString _).write _)

theorem Honest.escape {e : EncW σ ε} (h : Honest W s e) (lead : Bool) (t : Bytes) : Honest W s (e.escape W lead t) :=
  Honest.escapeLoop t lead [] h
theorem Honest.text {e : EncW σ ε} (h : Honest W s e) (t : Bytes) : Honest W s (e.text W t) := (h.escape true t).flush
theorem Honest.cdata {e : EncW σ ε} (h : Honest W s e) (c : Option Bytes) : Honest W s (e.cdata W c) := by
  cases c with
  | none => exact h
  | some c => exact (((h.writeString _).write _).writeString _).flush

theorem Honest.attrs : ∀ (l : List (Bytes × Bytes)) {e : EncW σ ε}, Honest W s e → Honest W s (e.attrs W l) := by
  intro l
  induction l with
  | nil => intro e h; exact h
  | cons nv l ih =>
    intro e h
    rw [EncW.attrs]
    refine ih ?_
    split
    · exact (((((h.writeByte _).writeString _).writeByte _).writeByte _).escape _ _).writeByte _
    · exact h

theorem Honest.body (d : Doc) (noTags noindent : Bool) (h : Head) (hasTags : Bool) {kids : EncW σ ε → Bool × EncW σ ε}
    (hk : ∀ e, Honest W s e → Honest W s (kids e).2) {e : EncW σ ε} (he : Honest W s e) :
    Honest W s (e.body W d noTags noindent h hasTags kids).2 := by
  unfold EncW.body
  have h1 := he.cdata h.cdata
  simp only
  generalize e.cdata W h.cdata = e1 at h1 ⊢
  split
  · exact h1
  · have h2 : Honest W s (if !noindent && !h.noIndent && hasTags then
        (if noTags then e1.writeIndent W d 0 true else e1.writeIndent W d 1 false) else e1) := by
      split
      · split
        · exact h1.writeIndent _ _ _
        · exact h1.writeIndent _ _ _
      · exact h1
    generalize (if !noindent && !h.noIndent && hasTags then
        (if noTags then e1.writeIndent W d 0 true else e1.writeIndent W d 1 false) else e1) = e2 at h2 ⊢
    have h3 := h2.text h.text
    generalize e2.text W h.text = e3 at h3 ⊢
    split
    · exact h3
    · have h4 := hk e3 h3
      rcases hkk : kids e3 with ⟨ok, e4⟩
      rw [hkk] at h4
      simp only at h4 ⊢
      cases ok with
      | false => exact h4
      | true =>
        simp only
        split
        · exact h4
        · have h5 := (((((h4.writeByte 60#8).writeByte 47#8).writeString (writtenEnd h)).writeByte 62#8)).flush
          split
          · exact h5
          · exact h5

theorem Honest.tag (d : Doc) (noTags noindent : Bool) (h : Head) (hasTags : Bool) {kids : EncW σ ε → Bool × EncW σ ε}
    (hk : ∀ e, Honest W s e → Honest W s (kids e).2) {e : EncW σ ε} (he : Honest W s e) :
    Honest W s (e.tag W d noTags noindent h hasTags kids).2 := by
  unfold EncW.tag
  have hb := fun {e : EncW σ ε} (he : Honest W s e) => Honest.body d noTags noindent h hasTags hk he
  simp only
  split
  · exact he
  · split
    · split
      · exact he.writeString _
      · split
        · exact (he.writeString _).text _
        · split
          · exact ((he.writeString _).text _).writeString _
          · exact ((he.writeString _).text _).writeString _
    · split
      · exact hb he
      · split
        · exact he
        · have h1 := Honest.attrs h.attr ((he.writeByte 60#8).writeString h.startName)
          split
          · split
            · exact ((h1.writeByte _).writeByte _).flush
            · exact ((h1.writeByte _).writeByte _).flush
          · split
            · exact (h1.writeByte _).flush
            · exact hb (h1.writeByte _).flush

theorem Honest.after (d : Doc) (noTags ni last : Bool) {e : EncW σ ε} (he : Honest W s e) : Honest W s (e.after W d noTags ni last) := by
  unfold EncW.after
  repeat' split
  all_goals first | exact he.writeIndent _ _ _ | exact he

mutual
theorem tags_honest (d : Doc) (noTags ni : Bool) (ts : List Tag) (e : EncW σ ε) (he : Honest W s e) :
    Honest W s (tags W d noTags ni ts e).2 := by
  cases ts with
  | nil => rw [tags]; exact he
  | cons t rest =>
    rw [tags]
    have h1 := sub_honest d ni t e he
    rcases hs : sub W d ni t e with ⟨r, e1⟩
    rw [hs] at h1
    simp only at h1 ⊢
    split
    · exact h1
    · refine tags_honest d noTags ni rest _ ?_
      split
      · exact h1
      · exact h1.after _ _ _ _
theorem sub_honest (d : Doc) (ni : Bool) (t : Tag) (e : EncW σ ε) (he : Honest W s e) : Honest W s (sub W d ni t e).2 := by
  obtain ⟨h, ts⟩ := t
  rw [sub]
  exact Honest.tag d false ni h _ (fun e he => tags_honest d false (ni || h.noIndent) ts e he) he
end

end EncW

/-- The calls that `WriteTo` records are calls of the writer. -/
theorem writeToW_made (d : Doc) (s : σ) : ∃ s', Made W s (writeToW W d s).1 s' := by
  unfold writeToW
  cases d.root with
  | none => exact ⟨s, .nil⟩
  | some t =>
    obtain ⟨h, ts⟩ := t
    simp only
    have h0 : EncW.Honest W s (⟨⟨⟨s, []⟩, [], none⟩, 0, none⟩ : EncW σ ε) := Made.nil
    have h1 := EncW.Honest.tag d d.excludeRoot h.noIndent h (!ts.isEmpty)
      (fun e he => EncW.tags_honest d d.excludeRoot (h.noIndent || h.noIndent) ts e he) (h0.writeString d.pre)
    generalize EncW.tag W d d.excludeRoot h.noIndent h (!ts.isEmpty)
      (fun e => EncW.tags W d d.excludeRoot (h.noIndent || h.noIndent) ts e) _ = r at h1 ⊢
    obtain ⟨r, e⟩ := r
    simp only at h1 ⊢
    split
    · exact ⟨_, h1⟩
    · exact ⟨_, (h1.writeString _).flush⟩

end Rbxlx

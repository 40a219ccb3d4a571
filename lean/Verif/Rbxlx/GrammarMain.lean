import Verif.Rbxlx.GrammarDoc
/-!
# The documents that the XML parser accepts are those of the grammar
-/
namespace Rbxlx
open Go Spec

/-! ## What precedes the nodes of an element -/

/-- `decodeTag` (rbxlx/document.go:439-601) from after the start tag, for an element that is not closed. -/
def readBody (fuel : Nat) (s : Bytes) : Res (Option Bytes × Bytes × List Tag × Bytes × Bytes) :=
  match readCData (skipSpace s) with
  | .panic => .panic
  | .err e => .err e
  | .ok (c, s) =>
    match readText .plain (skipSpace s) with
    | .panic => .panic
    | .err e => .err e
    | .ok (t, s) =>
      match readTags fuel s with
      | .panic => .panic
      | .err e => .err e
      | .ok (ts, endName, s) => .ok (c, t, ts, endName, s)

/-- The tag that is read, if it is not dropped. -/
def tagOf (st : StartState) (h : Head) (ts : List Tag) : Option Tag := if st = .ignored then none else some ⟨h, ts⟩

theorem readTag_body (fuel : Nat) (root : Bool) (s : Bytes) :
    readTag (fuel + 1) root s =
      match readStartTag (if root then skipSpace s else s) with
      | .panic => .panic
      | .err e => .err e
      | .ok (.comment, h, s) => .ok (some ⟨h, []⟩, s)
      | .ok (state, h, s) =>
        match if root then checkRoot h else .ok () with
        | .panic => .panic
        | .err e => .err e
        | .ok () =>
          if h.empty then .ok (tagOf state h [], s)
          else
            match readBody fuel s with
            | .panic => .panic
            | .err e => .err e
            | .ok (c, t, ts, endName, s) =>
              .ok (tagOf state { h with cdata := c, text := t, endName := endName } ts, s) := by
  rw [readTag]
  cases hs : readStartTag (if root then skipSpace s else s) with
  | panic => rfl
  | err e => rfl
  | ok x =>
    obtain ⟨st, h, s'⟩ := x
    cases st with
    | comment => rfl
    | ignored =>
      simp only
      cases hc : (if root then checkRoot h else .ok ()) with
      | panic => rfl
      | err e => rfl
      | ok u =>
        simp only [tagOf, readBody]
        split
        · rfl
        · cases readCData (skipSpace s') with
          | panic => rfl
          | err e => rfl
          | ok c =>
            obtain ⟨c, s2⟩ := c
            simp only
            cases readText .plain (skipSpace s2) with
            | panic => rfl
            | err e => rfl
            | ok t =>
              obtain ⟨t, s3⟩ := t
              simp only
              cases readTags fuel s3 with
              | panic => rfl
              | err e => rfl
              | ok y => rfl
    | tag =>
      simp only
      cases hc : (if root then checkRoot h else .ok ()) with
      | panic => rfl
      | err e => rfl
      | ok u =>
        simp only [tagOf, readBody]
        split
        · rfl
        · cases readCData (skipSpace s') with
          | panic => rfl
          | err e => rfl
          | ok c =>
            obtain ⟨c, s2⟩ := c
            simp only
            cases readText .plain (skipSpace s2) with
            | panic => rfl
            | err e => rfl
            | ok t =>
              obtain ⟨t, s3⟩ := t
              simp only
              cases readTags fuel s3 with
              | panic => rfl
              | err e => rfl
              | ok y => rfl

/-- What is written for the nodes of an element and its end tag begins with `<`. -/
theorem body_first (kids : Nodes) (hk : kids.Ok) (s : Bytes) :
    ∃ t, kids.source ++ (str "</" ++ s) = 60#8 :: t := by
  have e1 : str "</" = [60#8, 47#8] := by decide
  have e2 : str "<" = [60#8] := by decide
  have e3 : str "<!--" = [60#8, 33#8, 45#8, 45#8] := by decide
  have hst : ∀ x : StartSyntax, ∃ t, x.source = 60#8 :: t := by
    intro x; cases x
    · exact ⟨_, by simp only [StartSyntax.source, e2, List.cons_append]; rfl⟩
    · exact ⟨_, by simp only [StartSyntax.source, e2, List.cons_append]; rfl⟩
  cases kids with
  | nil => exact ⟨_, by rw [Nodes.source, e1]; rfl⟩
  | cons n ws rest =>
    rw [Nodes.source]
    cases n with
    | comment t => exact ⟨_, by rw [Node.source, e3]; rfl⟩
    | leaf x => obtain ⟨t, ht⟩ := hst x; exact ⟨_, by rw [Node.source, ht]; rfl⟩
    | elem x c k n w => obtain ⟨t, ht⟩ := hst x; exact ⟨_, by rw [Node.source, ht]; rfl⟩

/-- A name that does not begin with a marker of bytes of names does not begin with it with what follows either. -/
theorem prefix_of_name {m n rest : Bytes} {c : Byte} (hm : ∀ b ∈ m, TagByte b) (hc : ¬ TagByte c)
    (h : m <+: n ++ c :: rest) : m <+: n := by
  induction m generalizing n with
  | nil => exact List.nil_prefix
  | cons a m ih =>
    cases n with
    | nil =>
      rw [List.nil_append] at h
      have := (List.cons_prefix_cons.1 h).1
      exact absurd (this ▸ hm a (by simp)) hc
    | cons b n =>
      rw [List.cons_append] at h
      obtain ⟨rfl, h'⟩ := List.cons_prefix_cons.1 h
      exact List.cons_prefix_cons.2 ⟨rfl, ih (fun b hb => hm b (by simp [hb])) h'⟩

theorem cdata_bytes : ∀ b ∈ str "![CDATA[", TagByte b := by unfold TagByte; decide

/-- A start tag that is not mistaken for a CDATA section. -/
theorem start_not_cdata {x : StartSyntax} (hx : x.Ok) (hn : ¬ str "![CDATA[" <+: x.name) (s : Bytes) :
    ¬ cdataOpen <+: x.source ++ s := by
  have e0 : cdataOpen = 60#8 :: str "![CDATA[" := by decide
  have e1 : str "<" = [60#8] := by decide
  have e2 : str ">" = [62#8] := by decide
  rw [e0]
  intro h
  cases x with
  | named n as e =>
    obtain ⟨h1, h2, h3, h4, h5, h6, h7⟩ := hx
    simp only [StartSyntax.source, e1, List.cons_append, List.nil_append, List.append_assoc] at h
    have h' := (List.cons_prefix_cons.1 h).2
    cases ha : attrsSource as e with
    | nil =>
      simp only [attrsSource, List.append_eq_nil_iff] at ha
      have := ha.2
      cases e <;> simp [Ending.source, str] at this
    | cons c t =>
      rw [ha] at h' h7
      rw [List.cons_append] at h'
      exact hn (prefix_of_name cdata_bytes h7 h')
  | nameless junk =>
    obtain ⟨h1, h2⟩ := hx
    simp only [StartSyntax.source, e1, e2, List.cons_append, List.nil_append, List.append_assoc] at h
    have h' := (List.cons_prefix_cons.1 h).2
    have e3 : str "![CDATA[" = 33#8 :: str "[CDATA[" := by decide
    rw [e3] at h'
    cases junk with
    | nil =>
      rw [List.nil_append] at h'
      have := (List.cons_prefix_cons.1 h').1
      revert this; decide
    | cons b j =>
      rw [List.cons_append] at h'
      have := (List.cons_prefix_cons.1 h').1
      subst this
      exact h2 _ j rfl (by unfold TagByte; decide)

/-- What follows the start tag is not mistaken for a CDATA section. -/
theorem kids_not_cdata {kids : Nodes} (hk : kids.Ok) (hn : ¬ kids.likeCData) (s : Bytes) :
    ¬ cdataOpen <+: kids.source ++ (str "</" ++ s) := by
  have e0 : cdataOpen = [60#8, 33#8, 91#8] ++ str "CDATA[" := by decide
  have e1 : str "</" = [60#8, 47#8] := by decide
  have e3 : str "<!--" = [60#8, 33#8, 45#8, 45#8] := by decide
  cases kids with
  | nil =>
    rw [Nodes.source, e0, e1]
    rintro ⟨t, h⟩
    simp at h
  | cons n ws rest =>
    rw [Nodes.Ok] at hk
    rw [Nodes.source, List.append_assoc, List.append_assoc]
    cases n with
    | comment t =>
      rw [Node.source, e0, e3]
      rintro ⟨t, h⟩
      simp at h
    | leaf x =>
      rw [Node.Ok] at hk
      rw [Node.source]
      exact start_not_cdata hk.1.1 hn _
    | elem x c k n w =>
      rw [Node.Ok] at hk
      rw [Node.source]
      simp only [List.append_assoc]
      exact start_not_cdata hk.1.1 hn _

/-! ## What is written is read -/

theorem readCData_none {s : Bytes} (h : ¬ cdataOpen <+: s) : readCData s = .ok (none, s) := by
  unfold readCData
  rw [if_neg (by rw [List.isPrefixOf_iff_prefix]; exact h)]

theorem readCData_some {t : Bytes} (h : ¬ str "]]>" <:+: t) (s : Bytes) :
    readCData (cdataOpen ++ (t ++ (str "]]>" ++ s))) = .ok (some (normNewlines t), s) := by
  unfold readCData
  rw [if_pos (by rw [List.isPrefixOf_iff_prefix]; exact ⟨_, rfl⟩), List.drop_left]
  have e3 : str "]]>" = [93#8, 93#8, 62#8] := by decide
  have : NoCDataEnd t := by unfold NoCDataEnd; rw [← e3]; exact h
  rw [readText_cdata this, textBack_norm]
  rfl

theorem readEndTag_grammar {n ws : Bytes} (h1 : n ≠ []) (h2 : ∀ b ∈ n, TagByte b) (h3 : Blank ws) (s : Bytes) :
    readEndTag (n ++ ws ++ str ">" ++ s) = .ok (n, s) := by
  have e2 : str ">" = [62#8] := by decide
  obtain ⟨c, t, hct, hc⟩ : ∃ c t, ws ++ 62#8 :: s = c :: t ∧ ¬ TagByte c := by
    cases ws with
    | nil => exact ⟨62#8, s, rfl, by unfold TagByte; decide⟩
    | cons w ws => exact ⟨w, ws ++ 62#8 :: s, rfl, fun h => not_space_of_name h (h3 w (by simp))⟩
  rw [e2, List.append_assoc, List.append_assoc, List.singleton_append, hct, readEndTag,
    readName_ok (List.all_eq_true.2 (fun b hb => (isNameByte_tag b).2 (h2 b hb))) (isNameByte_tag_false.2 hc)]
  simp only [Res.ok_bind]
  rw [if_neg h1, ← hct, skip_blank h3 not_space_gt]
  rfl

/-- Text up to a `<`: it has no leading whitespace. -/
theorem skip_text {ps : List Piece} (h : TextOk ps) {ws : Bytes} (hws : Blank ws) (s : Bytes) :
    skipSpace (ws ++ (textSource ps ++ 60#8 :: s)) = textSource ps ++ 60#8 :: s := by
  cases ht : textSource ps with
  | nil => rw [List.nil_append, skip_blank hws not_space_lt]
  | cons b t => rw [List.cons_append, skip_blank hws (h.start b t ht)]

theorem text_first {ps : List Piece} (h : PiecesOk 60#8 ps) (hp : ps ≠ []) :
    ∃ b t, textSource ps = b :: t ∧ b ≠ 60#8 := by
  cases ps with
  | nil => exact absurd rfl hp
  | cons p ps =>
    simp only [textSource, List.flatMap_cons]
    by_cases hr : isRef p = true
    · obtain ⟨e, he⟩ := ref_source hr
      exact ⟨38#8, e ++ _, by rw [he]; rfl, by decide⟩
    · cases p with
      | byte b => exact ⟨b, _, rfl, h.1.2.2⟩
      | cr => exact ⟨13#8, _, rfl, by decide⟩
      | crlf => exact ⟨13#8, _, rfl, by decide⟩
      | named e => exact absurd rfl hr
      | number hex ds => exact absurd rfl hr
      | keptNumber hex ds s => exact absurd rfl hr
      | keptName n s => exact absurd rfl hr

theorem start_length (x : StartSyntax) : 0 < x.source.length := by
  cases x <;> simp [StartSyntax.source, str] <;> omega

/-- A start tag does not begin like an end tag. -/
theorem start_not_slash {x : StartSyntax} (hx : x.Ok) {s u : Bytes} (h : x.source ++ s = 60#8 :: 47#8 :: u) : False := by
  have e1 : str "<" = [60#8] := by decide
  have e2 : str ">" = [62#8] := by decide
  cases x with
  | named n as e =>
    obtain ⟨h1, -, h3, -⟩ := hx
    simp only [StartSyntax.source, e1, List.cons_append, List.nil_append, List.append_assoc, List.cons.injEq,
      true_and] at h
    cases n with
    | nil => exact h1 rfl
    | cons d n => exact h3 n (by rw [(List.cons.inj h).1])
  | nameless junk =>
    obtain ⟨-, h2⟩ := hx
    simp only [StartSyntax.source, e1, e2, List.cons_append, List.nil_append, List.append_assoc, List.cons.injEq,
      true_and] at h
    cases junk with
    | nil => have := (List.cons.inj h).1; revert this; decide
    | cons b j =>
      have := (List.cons.inj h).1
      subst this
      exact h2 _ j rfl (by unfold TagByte; decide)

mutual
/-- A node that can be written is read as what it means. -/
theorem readTag_node : ∀ (n : Node) (root : Bool) (s s' : Bytes) (fuel : Nat), n.Ok → (root = true → n.isRoot) →
    (if root then skipSpace s' else s') = n.source ++ s → 2 * (n.source ++ s).length < fuel →
    readTag fuel root s' = .ok (n.meaning, s)
  | .comment t, root, s, s', fuel, hok, _, hs, hf => by
    obtain ⟨fuel, rfl⟩ : ∃ k, fuel = k + 1 := ⟨fuel - 1, by omega⟩
    rw [Node.Ok] at hok
    rw [readTag_body, hs, Node.source, readStartTag_comment hok]
    simp only
    rw [Node.meaning]
  | .leaf x, root, s, s', fuel, hok, hr, hs, hf => by
    obtain ⟨fuel, rfl⟩ : ∃ k, fuel = k + 1 := ⟨fuel - 1, by omega⟩
    rw [Node.Ok] at hok
    have hcr : (if root then checkRoot (startHead x) else .ok ()) = .ok () := by
      cases root with
      | false => rfl
      | true => rw [if_pos rfl, checkRoot_start]; exact hr rfl
    rw [readTag_body, hs, Node.source, readStartTag_ok hok.1]
    have he : (startHead x).empty = true := hok.2
    cases hg : x.good with
    | true =>
      simp only [stateOf, if_true]
      rw [hcr]
      simp only [he, if_true]
      rw [Node.meaning, hg]
      simp [tagOf, startHead, hok.2]
    | false =>
      simp only [stateOf, Bool.false_eq_true, if_false]
      rw [hcr]
      simp only [he, if_true]
      rw [Node.meaning, hg]
      simp [tagOf]
  | .elem x c kids n ws, root, s, s', fuel, hok, hr, hs, hf => by
    obtain ⟨fuel, rfl⟩ : ∃ k, fuel = k + 1 := ⟨fuel - 1, by omega⟩
    rw [Node.Ok] at hok
    obtain ⟨h1, h2, h3, h4, h5, h6, h7, h8⟩ := hok
    have hcr : (if root then checkRoot (startHead x) else .ok ()) = .ok () := by
      cases root with
      | false => rfl
      | true => rw [if_pos rfl, checkRoot_start]; exact hr rfl
    have he : (startHead x).empty = false := h2
    rw [Node.source] at hs hf
    have hsrc : x.source ++ c.source ++ kids.source ++ str "</" ++ n ++ ws ++ str ">" ++ s =
        x.source ++ (c.source ++ (kids.source ++ (str "</" ++ (n ++ ws ++ str ">" ++ s)))) := by
      simp [List.append_assoc]
    rw [hsrc] at hs hf
    have hx := start_length x
    -- the nodes
    have hkids := readTags_nodes kids [] n ws s fuel h4 (by simp [Blank]) h6 h7 h8 (by
      simp only [List.nil_append, List.length_append] at hf ⊢; omega)
    rw [List.nil_append] at hkids
    obtain ⟨tl, htl⟩ := body_first kids h4 (n ++ ws ++ str ">" ++ s)
    have hcd : ¬ (c.cdata = none ∧ cdataOpen <+: textSource c.text ++ 60#8 :: tl) := by
      rintro ⟨hc0, hpre⟩
      by_cases ht : c.text = []
      · rw [ht] at hpre
        simp only [textSource, List.flatMap_nil, List.nil_append] at hpre
        rw [← htl] at hpre
        exact kids_not_cdata h4 (h5 hc0 ht) _ hpre
      · obtain ⟨b, t, hb1, hb2⟩ := text_first h3.text.pieces ht
        rw [hb1] at hpre
        have e0 : cdataOpen = 60#8 :: str "![CDATA[" := by decide
        rw [e0, List.cons_append] at hpre
        exact hb2 (List.cons_prefix_cons.1 hpre).1.symm
    have hbody : readBody fuel (c.source ++ (kids.source ++ (str "</" ++ (n ++ ws ++ str ">" ++ s)))) =
        .ok (c.cdata.map (fun y => normNewlines y.1), textMeaning c.text, kids.meaning, n, s) := by
      rw [htl] at hkids ⊢
      unfold readBody
      cases hc : c.cdata with
      | none =>
        have hcs : c.source = c.ws ++ textSource c.text := by simp [ContentSyntax.source, hc]
        rw [hcs, List.append_assoc, skip_text h3.text h3.ws, readCData_none (fun h => hcd ⟨hc, h⟩)]
        simp only
        have := skip_text h3.text (ws := []) (by simp [Blank]) tl
        rw [List.nil_append] at this
        rw [this, readPlain_piece h3.text]
        simp only
        rw [hkids]
        rfl
      | some tw =>
        obtain ⟨t, w⟩ := tw
        obtain ⟨hc1, hc2⟩ := h3.cdata t w hc
        have hcs : c.source = c.ws ++ (cdataOpen ++ (t ++ (str "]]>" ++ (w ++ textSource c.text)))) := by
          simp [ContentSyntax.source, hc, cdataOpen]
        have e0 : cdataOpen = 60#8 :: str "![CDATA[" := by decide
        rw [hcs]
        simp only [List.append_assoc]
        rw [e0, List.cons_append, skip_blank h3.ws not_space_lt, ← List.cons_append, ← e0, readCData_some hc1]
        simp only
        rw [skip_text h3.text hc2, readPlain_piece h3.text]
        simp only
        rw [hkids]
        rfl
    rw [readTag_body, hs, readStartTag_ok h1]
    cases hg : x.good with
    | true =>
      simp only [stateOf, if_true]
      rw [hcr]
      simp only [he, Bool.false_eq_true, if_false]
      rw [hbody, Node.meaning, hg]
      simp [tagOf, startHead, h2]
    | false =>
      simp only [stateOf, Bool.false_eq_true, if_false]
      rw [hcr]
      simp only [he, Bool.false_eq_true, if_false]
      rw [hbody, Node.meaning, hg]
      simp [tagOf]
/-- Nodes that can be written are read as what they mean, up to the end tag. -/
theorem readTags_nodes : ∀ (ns : Nodes) (ws0 n ws s : Bytes) (fuel : Nat), ns.Ok → Blank ws0 → n ≠ [] →
    (∀ b ∈ n, TagByte b) → Blank ws →
    2 * (ws0 ++ (ns.source ++ (str "</" ++ (n ++ ws ++ str ">" ++ s)))).length + 1 < fuel →
    readTags fuel (ws0 ++ (ns.source ++ (str "</" ++ (n ++ ws ++ str ">" ++ s)))) = .ok (ns.meaning, n, s)
  | .nil, ws0, n, ws, s, fuel, _, hb, h1, h2, h3, hf => by
    have e1 : str "</" = [60#8, 47#8] := by decide
    obtain ⟨fuel, rfl⟩ : ∃ k, fuel = k + 1 := ⟨fuel - 1, by
      simp only [List.length_append, str] at hf; simp at hf; omega⟩
    rw [Nodes.source, List.nil_append, e1]
    simp only [List.cons_append, List.nil_append]
    rw [readTags, skip_blank hb not_space_lt]
    simp only
    rw [readEndTag_grammar h1 h2 h3]
    simp only
    rw [Nodes.meaning]
  | .cons nd w rest, ws0, n, ws, s, fuel, hok, hb, h1, h2, h3, hf => by
    obtain ⟨tl, htl⟩ := body_first (.cons nd w rest) hok (n ++ ws ++ str ">" ++ s)
    rw [Nodes.Ok] at hok
    obtain ⟨k1, k2, k3⟩ := hok
    have hsrc : (Nodes.cons nd w rest).source ++ (str "</" ++ (n ++ ws ++ str ">" ++ s)) =
        nd.source ++ (w ++ (rest.source ++ (str "</" ++ (n ++ ws ++ str ">" ++ s)))) := by
      rw [Nodes.source]; simp [List.append_assoc]
    have hpos : 0 < nd.source.length := by
      cases nd with
      | comment t => rw [Node.source]; simp [str]
      | leaf x => rw [Node.source]; exact start_length x
      | elem x c k n w => rw [Node.source]; have := start_length x; simp only [List.length_append]; omega
    have hlen : nd.source.length + (w ++ (rest.source ++ (str "</" ++ (n ++ ws ++ str ">" ++ s)))).length ≤
        (ws0 ++ ((Nodes.cons nd w rest).source ++ (str "</" ++ (n ++ ws ++ str ">" ++ s)))).length := by
      rw [hsrc]; simp only [List.length_append]; omega
    obtain ⟨fuel, rfl⟩ : ∃ k, fuel = k + 1 := ⟨fuel - 1, by omega⟩
    have hrest := readTags_nodes rest w n ws s fuel k3 k2 h1 h2 h3 (by omega)
    have hnode := readTag_node nd false (w ++ (rest.source ++ (str "</" ++ (n ++ ws ++ str ">" ++ s))))
      (60#8 :: tl) fuel k1 (by simp) (by rw [← htl, hsrc]; rfl) (by
        rw [List.length_append]; omega)
    rw [htl, readTags, skip_blank hb not_space_lt]
    have h47 : ∀ u, tl ≠ 47#8 :: u := by
      rintro u rfl
      rw [hsrc] at htl
      cases nd with
      | comment t => rw [Node.source] at htl; have e3 : str "<!--" = [60#8, 33#8, 45#8, 45#8] := by decide
                     rw [e3] at htl; simp at htl
      | leaf x =>
        rw [Node.Ok] at k1
        rw [Node.source] at htl
        exact start_not_slash k1.1 htl
      | elem x c k n w =>
        rw [Node.Ok] at k1
        rw [Node.source] at htl
        simp only [List.append_assoc] at htl
        exact start_not_slash k1.1 htl
    split
    · rename_i heq
      exact absurd (List.cons.inj heq).2 (h47 _)
    · rename_i heq
      cases heq
      rw [hnode]
      simp only
      rw [hrest]
      simp only
      rw [Nodes.meaning]
    · rename_i h
      exact absurd rfl (h _)
end

/-! ## What is read was written -/

theorem readEndTag_sound {s n r : Bytes} (h : readEndTag s = .ok (n, r)) :
    ∃ ws, n ≠ [] ∧ (∀ b ∈ n, TagByte b) ∧ Blank ws ∧ s = n ++ ws ++ str ">" ++ r := by
  have e2 : str ">" = [62#8] := by decide
  obtain ⟨⟨n', s1⟩, h1, h2⟩ := Res.bind_eq_ok.1 h
  obtain ⟨n1, n2, c, u, rfl, n3⟩ := readName_sound h1
  simp only at h2
  split at h2
  · cases h2
  · rename_i hn
    obtain ⟨ws, w1, w2, -⟩ := skip_sound (c :: u)
    split at h2
    · rename_i s2 heq
      cases h2
      rw [heq] at w2
      exact ⟨ws, hn, fun b hb => (isNameByte_tag b).1 (n2 b hb), w1, by rw [n1, w2, e2]; simp⟩
    · cases h2

theorem readCData_sound {s r : Bytes} {c : Option Bytes} (h : readCData s = .ok (c, r)) :
    (c = none ∧ r = s ∧ ¬ cdataOpen <+: s) ∨
    (∃ t, ¬ str "]]>" <:+: t ∧ s = cdataOpen ++ (t ++ (str "]]>" ++ r)) ∧ c = some (normNewlines t)) := by
  unfold readCData at h
  split at h
  · rename_i hp
    obtain ⟨⟨t, s1⟩, h1, h2⟩ := Res.bind_eq_ok.1 h
    cases h2
    obtain ⟨c', c1, c2, c3⟩ := readCDataText_sound h1
    rw [List.isPrefixOf_iff_prefix] at hp
    obtain ⟨u, rfl⟩ := hp
    rw [List.drop_left] at c2
    exact .inr ⟨c', c1, by rw [c2]; simp, by rw [c3]⟩
  · rename_i hp
    cases h
    exact .inl ⟨rfl, rfl, fun e => hp (List.isPrefixOf_iff_prefix.2 e)⟩

theorem likeCData_prefix {kids : Nodes} (hk : kids.Ok) (h : kids.likeCData) (s : Bytes) :
    cdataOpen <+: kids.source ++ s := by
  have e0 : cdataOpen = 60#8 :: str "![CDATA[" := by decide
  have e1 : str "<" = [60#8] := by decide
  have hst : ∀ (x : StartSyntax) (s : Bytes), str "![CDATA[" <+: x.name → cdataOpen <+: x.source ++ s := by
    intro x s hx
    cases x with
    | named n as e =>
      obtain ⟨t, ht⟩ := hx
      simp only [StartSyntax.name] at ht
      rw [e0]
      simp only [StartSyntax.source, e1, List.cons_append, List.nil_append, List.append_assoc, ← ht]
      exact ⟨_, by rw [List.cons_append]⟩
    | nameless junk =>
      exfalso
      obtain ⟨t, ht⟩ := hx
      simp [StartSyntax.name, str] at ht
  cases kids with
  | nil => exact absurd h (by simp [Nodes.likeCData])
  | cons n ws rest =>
    rw [Nodes.source]
    simp only [List.append_assoc]
    cases n with
    | comment t => exact absurd h (by simp [Nodes.likeCData])
    | leaf x => rw [Node.source]; exact hst x _ h
    | elem x c k n w =>
      rw [Node.source]
      simp only [List.append_assoc]
      exact hst x _ h

theorem readBody_sound {fuel : Nat} {s : Bytes} {c : Option Bytes} {t : Bytes} {ts : List Tag} {n r : Bytes}
    (h : readBody fuel s = .ok (c, t, ts, n, r))
    (ih : ∀ s ts n r, readTags fuel s = .ok (ts, n, r) → ∃ (ws0 : Bytes) (ns : Nodes) (w : Bytes), Blank ws0 ∧ ns.Ok ∧ n ≠ [] ∧ (∀ b ∈ n, TagByte b) ∧
      Blank w ∧ s = ws0 ++ (ns.source ++ (str "</" ++ (n ++ w ++ str ">" ++ r))) ∧ ns.meaning = ts) :
    ∃ (co : ContentSyntax) (kids : Nodes) (w : Bytes), co.Ok ∧ kids.Ok ∧
      (co.cdata = none → co.text = [] → ¬ kids.likeCData) ∧
      n ≠ [] ∧ (∀ b ∈ n, TagByte b) ∧ Blank w ∧
      s = co.source ++ (kids.source ++ (str "</" ++ (n ++ w ++ str ">" ++ r))) ∧
      c = co.cdata.map (fun y => normNewlines y.1) ∧ t = textMeaning co.text ∧ ts = kids.meaning := by
  unfold readBody at h
  split at h
  · cases h
  · cases h
  rename_i c' s1 hc
  split at h
  · cases h
  · cases h
  rename_i t' s2 ht
  split at h
  · cases h
  · cases h
  rename_i ts' n' s3 hts
  cases h
  obtain ⟨ws1, a1, a2, a3⟩ := skip_sound s
  obtain ⟨ws2, b1, b2, b3⟩ := skip_sound s1
  obtain ⟨ps, tail, p1, p2, p3, p4⟩ := readPlain_sound ht b3
  obtain ⟨ws0, ns, w, i1, i2, i3, i4, i5, i6, i7⟩ := ih _ _ _ _ hts
  have hws0 : ws0 = [] := by
    rw [p2] at i6
    cases ws0 with
    | nil => rfl
    | cons x ws0 =>
      have := (List.cons.inj i6).1
      exact absurd (i1 x (by simp)) (by rw [← this]; exact not_space_lt)
  subst hws0
  rw [List.nil_append] at i6
  rcases readCData_sound hc with ⟨rfl, rfl, c3⟩ | ⟨ct, c1, c2, rfl⟩
  · -- no section
    have hws2 : skipSpace (skipSpace s) = skipSpace s := by
      cases hsk : skipSpace s with
      | nil => rfl
      | cons b u => exact skipSpace_cons (not_space (a3 b u hsk))
    rw [hws2] at p3
    refine ⟨⟨ws1, none, ps⟩, ns, w, ⟨a1, nofun, p1⟩, i2, ?_, i3, i4, i5, ?_, rfl, p4, i7.symm⟩
    · intro _ hps hl
      have hps : ps = [] := hps
      subst hps
      apply c3
      rw [p3, i6]
      simp only [textSource, List.flatMap_nil, List.nil_append]
      exact likeCData_prefix i2 hl _
    · rw [a2, p3, i6]; simp [ContentSyntax.source]
  · refine ⟨⟨ws1, some (ct, ws2), ps⟩, ns, w, ⟨a1, ?_, p1⟩, i2, nofun, i3, i4, i5, ?_, rfl, p4, i7.symm⟩
    · rintro t' ws' ⟨⟩
      exact ⟨c1, b1⟩
    · rw [a2, c2, b2, p3, i6]; simp [ContentSyntax.source, cdataOpen]

mutual
/-- What is read as a tag is a node. -/
theorem readTag_sound : ∀ (fuel : Nat) (root : Bool) (s r : Bytes) (t : Option Tag), readTag fuel root s = .ok (t, r) →
    ∃ n : Node, n.Ok ∧ (root = true → n.isRoot) ∧ (if root then skipSpace s else s) = n.source ++ r ∧ t = n.meaning
  | 0, _, _, _, _, h => by simp [readTag] at h
  | fuel + 1, root, s, r, t, h => by
    rw [readTag_body] at h
    split at h
    · cases h
    · cases h
    · rename_i hd s1 hs
      cases h
      rcases readStartTag_sound hs with ⟨t, t1, t2, -, rfl⟩ | ⟨x, x1, x2, x3, x4⟩
      · exact ⟨.comment t, by rw [Node.Ok]; exact t1, fun _ => trivial, by rw [t2, Node.source], by rw [Node.meaning]⟩
      · exfalso
        unfold stateOf at x3
        split at x3 <;> cases x3
    · rename_i st hd s1 hnc hs
      rcases readStartTag_sound hs with ⟨t, t1, t2, rfl, -⟩ | ⟨x, x1, x2, rfl, rfl⟩
      · exact absurd rfl hnc
      · split at h
        · cases h
        · cases h
        rename_i hcr
        have hroot : root = true → x.isRoot := by
          rintro rfl
          rw [if_pos rfl, checkRoot_start] at hcr
          exact hcr
        split at h
        · rename_i he
          cases h
          refine ⟨.leaf x, by rw [Node.Ok]; exact ⟨x1, he⟩, hroot, by rw [x2, Node.source], ?_⟩
          rw [Node.meaning]
          have he : x.isClosed = true := he
          cases hg : x.good <;> simp [tagOf, stateOf, startHead, he]
        · rename_i he
          have he : ¬ x.isClosed = true := he
          simp only [Bool.not_eq_true] at he
          split at h
          · cases h
          · cases h
          rename_i c t ts n s2 hb
          cases h
          obtain ⟨co, kids, w, b1, b2, b3, b4, b5, b6, b7, rfl, rfl, rfl⟩ :=
            readBody_sound hb (fun s ts n r => readTags_sound fuel s ts n r)
          refine ⟨.elem x co kids n w, by rw [Node.Ok]; exact ⟨x1, he, b1, b2, b3, b4, b5, b6⟩, hroot, ?_, ?_⟩
          · rw [x2, b7, Node.source]; simp
          · rw [Node.meaning]
            cases hg : x.good <;> simp [tagOf, stateOf, startHead, he]
/-- What is read as the tags within a tag are nodes. -/
theorem readTags_sound : ∀ (fuel : Nat) (s : Bytes) (ts : List Tag) (n r : Bytes), readTags fuel s = .ok (ts, n, r) →
    ∃ (ws0 : Bytes) (ns : Nodes) (w : Bytes), Blank ws0 ∧ ns.Ok ∧ n ≠ [] ∧ (∀ b ∈ n, TagByte b) ∧ Blank w ∧
      s = ws0 ++ (ns.source ++ (str "</" ++ (n ++ w ++ str ">" ++ r))) ∧ ns.meaning = ts
  | 0, _, _, _, _, h => by simp [readTags] at h
  | fuel + 1, s, ts, n, r, h => by
    have e1 : str "</" = [60#8, 47#8] := by decide
    obtain ⟨ws0, a1, a2, a3⟩ := skip_sound s
    rw [readTags] at h
    split at h
    · rename_i s1 heq
      split at h
      · cases h
      · cases h
      rename_i n' s2 he
      cases h
      obtain ⟨w, w1, w2, w3, w4⟩ := readEndTag_sound he
      refine ⟨ws0, .nil, w, a1, by rw [Nodes.Ok]; trivial, w1, w2, w3, ?_, by rw [Nodes.meaning]⟩
      rw [a2, heq, w4, Nodes.source, e1]; simp
    · rename_i s1 hne heq
      split at h
      · cases h
      · cases h
      rename_i t s2 ht
      split at h
      · cases h
      · cases h
      rename_i ts' n' s3 hts
      cases h
      obtain ⟨nd, n1, -, n3, rfl⟩ := readTag_sound fuel false _ _ _ ht
      obtain ⟨ws1, ns, w, i1, i2, i3, i4, i5, i6, rfl⟩ := readTags_sound fuel _ _ _ _ hts
      refine ⟨ws0, .cons nd ws1 ns, w, a1, by rw [Nodes.Ok]; exact ⟨n1, i1, i2⟩, i3, i4, i5, ?_, by rw [Nodes.meaning]⟩
      rw [a2, heq, Nodes.source]
      simp only [Bool.false_eq_true, if_false] at n3
      rw [n3, i6]; simp
    · cases h
end

/-- The parser accepts the documents of the grammar, and reads them as what they mean. -/
theorem readFrom_iff (s : Bytes) (t : Option Tag) (suffix : Bytes) :
    readFrom s = .ok (t, suffix) ↔
      ∃ (lead : Bytes) (n : Node), Blank lead ∧ n.Ok ∧ n.isRoot ∧ s = lead ++ n.source ++ suffix ∧ t = n.meaning := by
  constructor
  · intro h
    obtain ⟨n, n1, n2, n3, n4⟩ := readTag_sound _ _ _ _ _ h
    obtain ⟨lead, a1, a2, -⟩ := skip_sound s
    rw [if_pos rfl] at n3
    exact ⟨lead, n, a1, n1, n2 rfl, by rw [List.append_assoc, ← n3]; exact a2, n4⟩
  · rintro ⟨lead, n, h1, h2, h3, rfl, rfl⟩
    refine readTag_node n true suffix _ _ h2 (fun _ => h3) ?_ ?_
    · rw [if_pos rfl, List.append_assoc, skipSpace_append (blank_all h1)]
      have hf : ∃ u, n.source = 60#8 :: u := by
        have e2 : str "<" = [60#8] := by decide
        have hst : ∀ x : StartSyntax, ∃ t, x.source = 60#8 :: t := by
          intro x; cases x
          · exact ⟨_, by simp only [StartSyntax.source, e2, List.cons_append]; rfl⟩
          · exact ⟨_, by simp only [StartSyntax.source, e2, List.cons_append]; rfl⟩
        cases n with
        | comment t => exact ⟨str "!--" ++ t ++ str "-->", by rw [Node.source]; rfl⟩
        | leaf x => obtain ⟨t, ht⟩ := hst x; exact ⟨t, by rw [Node.source, ht]⟩
        | elem x c k n w => obtain ⟨t, ht⟩ := hst x; exact ⟨_, by rw [Node.source, ht]; rfl⟩
      obtain ⟨u, hu⟩ := hf
      rw [hu, List.cons_append, skipSpace_cons (by decide)]
    · simp only [List.length_append]; omega

end Rbxlx

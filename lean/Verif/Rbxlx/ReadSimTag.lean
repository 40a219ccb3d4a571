import Verif.Rbxlx.ReadSim
/-!
# The decoder that reads byte by byte does what the function on byte strings does: tags
-/
namespace Rbxlx
open Go Spec Rbxfile

variable {ε α β : Type} {e : Stop ε} {b : Bytes}

/-- The result of a method with two results corresponds to that of a function on byte strings. -/
def Outcome2 (e : Stop ε) (b : Bytes) (st : List Int) (x : Option (α × β) × Dec ε × Bytes) (r : Res (α × β × Bytes)) : Prop :=
  match r with
  | .ok (a, c, s) => x.1 = some (a, c) ∧ At e b st x.2.1 x.2.2 s
  | .err _ => x.1 = none ∧ Bad e b x.2.1
  | .panic => True

namespace Dec

section
variable {st : List Int}

/-! ## Comments and ignored tags -/

theorem commentLoop_bad (F : Nat) (hF : 0 < F) {d : Dec ε} {src : Bytes} (h : Bad e b d) :
    ∃ d' src', exec e (commentLoop F) d src = (false, d', src') ∧ Bad e b d' := by
  obtain ⟨F, rfl⟩ : ∃ k, F = k + 1 := ⟨F - 1, by omega⟩
  obtain ⟨d', h1, h2, -⟩ := mustgetc_bad (src := src) h
  exact ⟨d', src, by simp only [commentLoop, exec_bind, h1, exec_pure], h2⟩

theorem readComment_other (c : Byte) (s : Bytes) (h : c ≠ 45#8 ∨ ¬ [45#8, 62#8] <+: s) :
    readComment (c :: s) = (do let (t, rest) ← readComment s; .ok (c :: t, rest)) := by
  rw [readComment.eq_def]
  split
  · rename_i heq; cases heq
  · rename_i heq
    simp only [List.cons.injEq] at heq
    obtain ⟨rfl, rfl⟩ := heq
    rcases h with h | h
    · exact absurd rfl h
    · exact absurd ⟨_, rfl⟩ h
  · rename_i heq
    simp only [List.cons.injEq] at heq
    obtain ⟨rfl, rfl⟩ := heq
    rfl

theorem commentLoop_at : ∀ (F : Nat) (s : Bytes) {d : Dec ε} {src : Bytes}, At e b st d src s → s.length < F →
    ∃ x d' src', exec e (commentLoop F) d src = (x, d', src') ∧
      match readComment s with
      | .ok (t, rest) => x = true ∧ At e b st d' src' rest ∧ d'.buf = d.buf ++ t
      | _ => x = false ∧ Bad e b d'
  | 0, s, d, src, _, hF => by omega
  | F + 1, [], d, src, h, _ => by
    obtain ⟨d', src', h1, h2⟩ := mustgetc_nil h
    exact ⟨false, d', src', by simp only [commentLoop, exec_bind, h1, exec_pure], rfl, h2⟩
  | F + 1, c :: s, d, src, h, hF => by
    obtain ⟨d1, src1, h1, h2, h3, h4⟩ := mustgetc_cons h
    simp only [List.length_cons] at hF
    have step : ∀ (d2 : Dec ε) (src2 : Bytes), At e b st d2 src2 s → d2.buf = d.buf → (c ≠ 45#8 ∨ ¬ [45#8, 62#8] <+: s) →
        ∃ x d' src', exec e (do write [c]; commentLoop F) d2 src2 = (x, d', src') ∧
          match readComment (c :: s) with
          | .ok (t, rest) => x = true ∧ At e b st d' src' rest ∧ d'.buf = d.buf ++ t
          | _ => x = false ∧ Bad e b d' := by
      intro d2 src2 k1 k2 k3
      obtain ⟨d3, m1, m2, m3, m4⟩ := exec_write k1 [c]
      obtain ⟨x, d', src', n1, n2⟩ := commentLoop_at F s m2 (by omega)
      refine ⟨x, d', src', by rw [exec_bind, m1]; exact n1, ?_⟩
      rw [readComment_other c s k3]
      cases hr : readComment s with
      | ok p =>
        rw [hr] at n2
        obtain ⟨g1, g2, g3⟩ := n2
        exact ⟨g1, g2, by rw [g3, m4, k2]; simp⟩
      | err y => rw [hr] at n2; exact n2
      | panic => rw [hr] at n2; exact n2
    by_cases hc : c = 45#8
    · subst hc
      rw [commentLoop, exec_bind, h1]
      simp only [if_true, exec_bind]
      have hsuf : (([] : Bytes).reverse ++ s) <:+ b := h2.suffix
      rcases matchBytes_at [45#8, 62#8] [] h2 hsuf with ⟨s1, d2, src2, k1, k2, k3, k4⟩ | ⟨k0, d2, src2, k2, k3, k4, k5⟩ | ⟨k0, k1, d2, src2, k2, k3, k4⟩
      · rw [k2]
        subst k1
        exact ⟨true, d2, src2, rfl, rfl, k3, by rw [k4, h4]; simp⟩
      · rw [k2]
        simp only [Option.some.injEq, Bool.false_eq_true, if_false]
        exact step d2 src2 k3 (k5.trans h4) (.inr k0)
      · rw [k2]
        simp only [reduceCtorEq, if_false, exec_bind]
        have hw : exec e (write [45#8]) d2 src2 = ((), { d2 with buf := d2.buf ++ [45#8] }, src2) := exec_modify _ _ _
        have hb : Bad e b { d2 with buf := d2.buf ++ [45#8] } := ⟨k3.err, k3.warns, k3.line⟩
        obtain ⟨d3, src3, m1, m2⟩ := commentLoop_bad (src := src2) (F := F) (by omega) hb
        rw [hw, m1]
        refine ⟨false, d3, src3, rfl, ?_⟩
        rw [readComment_other _ s (.inr k0)]
        obtain ⟨t, ht⟩ := k1
        cases s with
        | nil => exact ⟨rfl, m2⟩
        | cons c1 s =>
          simp only [List.cons_append, List.cons.injEq] at ht
          obtain ⟨rfl, ht⟩ := ht
          cases s with
          | nil => exact ⟨rfl, m2⟩
          | cons c2 s =>
            simp only [List.cons_append, List.cons.injEq, List.append_eq_nil_iff] at ht
            obtain ⟨rfl, rfl, -⟩ := ht
            exact absurd List.prefix_rfl k0
    · rw [commentLoop, exec_bind, h1]
      simp only [if_neg hc]
      exact step d1 src1 h2 h4 (.inl hc)

theorem ignoreLoop_bad (F : Nat) (hF : 0 < F) {d : Dec ε} {src : Bytes} (h : Bad e b d) :
    ∃ d' src', exec e (ignoreLoop F) d src = (false, d', src') ∧ Bad e b d' := by
  obtain ⟨F, rfl⟩ : ∃ k, F = k + 1 := ⟨F - 1, by omega⟩
  obtain ⟨d', h1, h2, -⟩ := mustgetc_bad (src := src) h
  exact ⟨d', src, by simp only [ignoreLoop, exec_bind, h1, exec_pure], h2⟩

theorem ignoreLoop_at : ∀ (F : Nat) (s : Bytes) {d : Dec ε} {src : Bytes}, At e b st d src s → s.length < F →
    ∃ x d' src', exec e (ignoreLoop F) d src = (x, d', src') ∧
      match ignoreStartTag s with
      | .ok rest => x = true ∧ At e b st d' src' rest
      | _ => x = false ∧ Bad e b d'
  | 0, s, d, src, _, hF => by omega
  | F + 1, [], d, src, h, _ => by
    obtain ⟨d', src', h1, h2⟩ := mustgetc_nil h
    exact ⟨false, d', src', by simp only [ignoreLoop, exec_bind, h1, exec_pure], rfl, h2⟩
  | F + 1, c :: s, d, src, h, hF => by
    obtain ⟨d1, src1, h1, h2, h3, h4⟩ := mustgetc_cons h
    simp only [List.length_cons] at hF
    rw [ignoreLoop, exec_bind, h1]
    by_cases hc : c = 62#8
    · subst hc
      exact ⟨true, d1, src1, rfl, rfl, h2⟩
    · simp only [if_neg hc]
      obtain ⟨x, d', src', k1, k2⟩ := ignoreLoop_at F s h2 (by omega)
      refine ⟨x, d', src', k1, ?_⟩
      have : ignoreStartTag (c :: s) = ignoreStartTag s := by
        unfold ignoreStartTag
        rw [List.dropWhile_cons]
        simp only [ne_eq, hc, not_false_eq_true, decide_true, if_true]
      rw [this]
      exact k2

theorem ignoreStart_bad (F : Nat) (hF : 0 < F) (msg : String) (tag : Head) {d : Dec ε} {src : Bytes} (h : Bad e b d) :
    ∃ d' src', exec e (ignoreStart F msg tag) d src = (none, d', src') ∧ Bad e b d' := by
  have hw : exec e (D.modify fun d => { d with warns := d.warns ++ [(msg, d.line)] }) d src =
      ((), { d with warns := d.warns ++ [(msg, d.line)] }, src) := exec_modify _ _ _
  have hb : Bad e b { d with warns := d.warns ++ [(msg, d.line)] } := by
    refine ⟨h.err, ?_, h.line⟩
    intro w hw
    rcases List.mem_append.1 hw with hw | hw
    · exact h.warns w hw
    · simp only [List.mem_singleton] at hw; subst hw; exact h.line
  obtain ⟨d', src', h1, h2⟩ := ignoreLoop_bad F hF (src := src) hb
  refine ⟨d', src', ?_, h2⟩
  rw [ignoreStart, exec_bind, hw, exec_bind, h1]
  rfl

theorem ignoreStart_at (F : Nat) (msg : String) (tag : Head) (s : Bytes) {d : Dec ε} {src : Bytes} (h : At e b st d src s)
    (hF : s.length < F) :
    Outcome2 e b st (exec e (ignoreStart F msg tag) d src) (do let s ← ignoreStartTag s; .ok (.ignored, tag, s)) := by
  have hw : exec e (D.modify fun d => { d with warns := d.warns ++ [(msg, d.line)] }) d src =
      ((), { d with warns := d.warns ++ [(msg, d.line)] }, src) := exec_modify _ _ _
  have hb : At e b st { d with warns := d.warns ++ [(msg, d.line)] } src s := by
    refine ⟨h.rest, h.suffix, h.line, h.stack, h.lines, h.err, ?_⟩
    intro w hw
    rcases List.mem_append.1 hw with hw | hw
    · exact h.warns w hw
    · simp only [List.mem_singleton] at hw; subst hw; exact h.lineOf
  obtain ⟨x, d', src', h1, h2⟩ := ignoreLoop_at F s hb hF
  rw [ignoreStart, exec_bind, hw, exec_bind, h1]
  cases hr : ignoreStartTag s with
  | ok rest => rw [hr] at h2; obtain ⟨rfl, h2⟩ := h2; exact ⟨rfl, h2⟩
  | err y => rw [hr] at h2; obtain ⟨rfl, h2⟩ := h2; exact ⟨rfl, h2⟩
  | panic => trivial

/-! ## Start tags -/

/-- `attrval` (rbxlx/document.go:603-615) on a byte string. -/
def readAttrVal : Bytes → Res (Bytes × Bytes)
  | 34#8 :: s => readText .quoted s
  | _ => .err (.other "unquoted or missing attribute value in element")

theorem attrval_at (F : Nat) (s : Bytes) {d : Dec ε} {src : Bytes} (h : At e b st d src s) (hF : s.length < F) :
    TextOutcome e b st .quoted (exec e (attrval F) d src) (readAttrVal s) := by
  cases s with
  | nil =>
    obtain ⟨d', src', h1, h2⟩ := mustgetc_nil h
    rw [attrval, exec_bind, h1]
    exact .inl ⟨rfl, h2⟩
  | cons c s =>
    obtain ⟨d1, src1, h1, h2, h3, h4⟩ := mustgetc_cons h
    simp only [List.length_cons] at hF
    rw [attrval, exec_bind, h1]
    by_cases hc : c = 34#8
    · subst hc
      simp only [if_true]
      exact text_at .quoted F s h2 hF
    · simp only [if_neg hc]
      obtain ⟨d2, k1, k2⟩ := exec_syntaxError "unquoted or missing attribute value in element" h2
      rw [exec_bind, k1]
      refine .inl ?_
      unfold readAttrVal
      split
      · rename_i heq; simp only [List.cons.injEq] at heq; exact absurd heq.1 hc
      · exact ⟨rfl, k2⟩

/-- `readAttrs` when the next byte is neither the end of the tag nor `/`. -/
theorem readAttrs_name (f : Nat) (tag : Head) (s : Bytes) (c : Byte) (s1 : Bytes) (hs : skipSpace s = c :: s1) (h47 : c ≠ 47#8) (h62 : c ≠ 62#8) :
    readAttrs (f + 1) tag s = (do
      let (name, s) ← Rbxlx.readName .attr (c :: s1)
      if name = [] then
        let s ← ignoreStartTag s
        .ok (.ignored, { tag with attr := tag.attr ++ [([], [])] }, s)
      else
        match skipSpace s with
        | 61#8 :: s => do
          let (value, s) ← readAttrVal (skipSpace s)
          readAttrs f { tag with attr := tag.attr ++ [(name, value)] } s
        | _ :: s => do
          let s ← ignoreStartTag s
          .ok (.ignored, { tag with attr := tag.attr ++ [(name, [])] }, s)
        | [] => .err (.other "unexpected EOF")) := by
  rw [readAttrs, hs]
  split
  · rename_i heq; cases heq
  · rename_i heq; simp only [List.cons.injEq] at heq; exact absurd heq.1 h47
  · rename_i heq; simp only [List.cons.injEq] at heq; exact absurd heq.1 h62
  · cases Rbxlx.readName .attr (c :: s1) with
    | err y => rfl
    | panic => rfl
    | ok p =>
      simp only [Res.ok_bind]
      split
      · rfl
      · split
        · rename_i s2 heq
          simp only [heq]
          unfold readAttrVal
          cases skipSpace s2 with
          | nil => rfl
          | cons c2 s3 =>
            by_cases hc : c2 = 34#8
            · subst hc; rfl
            · split
              · rename_i heq; simp only [List.cons.injEq] at heq; exact absurd heq.1 hc
              · split
                · rename_i heq; simp only [List.cons.injEq] at heq; exact absurd heq.1 hc
                · rfl
        · rename_i c2 s2 hne heq
          split
          · rename_i heq2
            rw [heq] at heq2
            simp only [List.cons.injEq] at heq2
            obtain ⟨rfl, rfl⟩ := heq2
            exact (hne rfl).elim
          · rename_i heq2
            rw [heq] at heq2
            simp only [List.cons.injEq] at heq2
            obtain ⟨rfl, rfl⟩ := heq2
            rfl
          · rename_i heq2; rw [heq] at heq2; cases heq2
        · rename_i heq
          simp only [heq]

theorem readAttrVal_good (s : Bytes) : Good Prod.snd (s.length - 1) (readAttrVal s) := by
  unfold readAttrVal
  split
  · exact (readText_good _ _).mono (by simp)
  · exact .err (by decide)

theorem attrLoop_end {F : Nat} (hF : 1 < F) (tag : Head) {d : Dec ε} {src : Bytes} (h : At e b st d src []) :
    ∃ d' src', exec e (attrLoop F tag) d src = (none, d', src') ∧ Bad e b d' := by
  obtain ⟨F, rfl⟩ : ∃ k, F = k + 1 := ⟨F - 1, by omega⟩
  obtain ⟨d1, src1, h1, h2, h3⟩ := space_at F [] h (by simp; omega)
  obtain ⟨d2, src2, h4, h5⟩ := mustgetc_nil h2
  exact ⟨d2, src2, by rw [attrLoop, exec_bind, h1, exec_bind, h4]; rfl, h5⟩

theorem attrLoop_at : ∀ (f F : Nat) (tag : Head) (s : Bytes) {d : Dec ε} {src : Bytes}, At e b st d src s → s.length < f → s.length + 2 ≤ F →
    Outcome2 e b st (exec e (attrLoop F tag) d src) (readAttrs f tag s) := by
  intro f
  induction f with
  | zero => intro F tag s d src _ hf; omega
  | succ f ih =>
    intro F tag s d src h hf hF
    obtain ⟨F, rfl⟩ : ∃ k, F = k + 1 := ⟨F - 1, by omega⟩
    obtain ⟨d1, src1, h1, h2, h3⟩ := space_at F s h (by omega)
    have hlen := skipSpace_length s
    rw [attrLoop, exec_bind, h1]
    cases hs : skipSpace s with
    | nil =>
      rw [hs] at h2
      obtain ⟨d2, src2, h4, h5⟩ := mustgetc_nil h2
      rw [exec_bind, h4, readAttrs, hs]
      exact ⟨rfl, h5⟩
    | cons c s1 =>
      rw [hs] at h2 hlen
      simp only [List.length_cons] at hlen
      obtain ⟨d2, src2, h4, h5, h6, h7⟩ := mustgetc_cons h2
      rw [exec_bind, h4]
      simp only
      by_cases h47 : c = 47#8
      · subst h47
        simp only [if_true]
        rw [readAttrs, hs]
        simp only
        cases s1 with
        | nil =>
          obtain ⟨d3, src3, k1, k2⟩ := mustgetc_nil h5
          rw [exec_bind, k1]
          exact ⟨rfl, k2⟩
        | cons c1 s2 =>
          obtain ⟨d3, src3, k1, k2, k3, k4⟩ := mustgetc_cons h5
          simp only [List.length_cons] at hlen
          rw [exec_bind, k1]
          by_cases hc : c1 = 62#8
          · subst hc
            exact ⟨rfl, k2⟩
          · simp only [ne_eq, hc, not_false_eq_true, if_true]
            exact ignoreStart_at F _ _ _ k2 (by omega)
      · simp only [if_neg h47]
        by_cases h62 : c = 62#8
        · subst h62
          rw [readAttrs, hs]
          exact ⟨rfl, h5⟩
        · simp only [if_neg h62]
          rw [readAttrs_name f tag s c s1 hs h47 h62]
          obtain ⟨d3, k1, k2, k3, k4⟩ := ungetc_at (c := c) h5 h6 h2.suffix
          rw [exec_bind, k1]
          obtain ⟨x, d4, src4, m1, m2⟩ := name_at .attr F (c :: s1) k2 (by simp only [List.length_cons]; omega)
          rw [exec_bind, m1]
          have hg := readName_good .attr (c :: s1)
          cases hr : Rbxlx.readName .attr (c :: s1) with
          | panic => exact absurd hr hg.1
          | err y =>
            rw [hr] at m2
            obtain ⟨rfl, m2⟩ := m2
            obtain ⟨d5, src5, n1, n2⟩ := ignoreStart_bad F (by omega) "expected attribute name in element"
              { tag with attr := tag.attr ++ [([], [])] } (src := src4) m2
            simp only [n1]
            exact ⟨rfl, n2⟩
          | ok p =>
            obtain ⟨n, rest⟩ := p
            have hrl := hg.2.2 _ hr
            simp only [List.length_cons] at hrl
            rw [hr] at m2
            obtain ⟨rfl, m2, m3⟩ := m2
            simp only [Res.ok_bind]
            by_cases hn : n = []
            · subst hn
              simp only [if_true]
              exact ignoreStart_at F _ _ _ m2 (by omega)
            · simp only [if_neg hn]
              obtain ⟨d5, src5, n1, n2, n3⟩ := space_at F rest m2 (by omega)
              have hl2 := skipSpace_length rest
              rw [exec_bind, n1]
              cases hs2 : skipSpace rest with
              | nil =>
                rw [hs2] at n2
                obtain ⟨d6, src6, q1, q2⟩ := mustgetc_nil n2
                rw [exec_bind, q1]
                exact ⟨rfl, q2⟩
              | cons c2 s2 =>
                rw [hs2] at n2 hl2
                simp only [List.length_cons] at hl2
                obtain ⟨d6, src6, q1, q2, q3, q4⟩ := mustgetc_cons n2
                rw [exec_bind, q1]
                by_cases h61 : c2 = 61#8
                · subst h61
                  simp only [ne_eq, not_true_eq_false, if_false]
                  obtain ⟨d7, src7, w1, w2, w3⟩ := space_at F s2 q2 (by omega)
                  have hl3 := skipSpace_length s2
                  rw [exec_bind, w1]
                  have ha := attrval_at F (skipSpace s2) w2 (by omega)
                  rcases hx : exec e (attrval F) d7 src7 with ⟨y, d8, src8⟩
                  rw [hx] at ha
                  rw [exec_bind, hx]
                  have htg := readAttrVal_good (skipSpace s2)
                  rcases ha with ha | ⟨⟨z, hz⟩, -, t, ht1, ht2⟩
                  · cases ht : readAttrVal (skipSpace s2) with
                    | panic => exact absurd ht htg.1
                    | err z =>
                      rw [ht] at ha
                      obtain ⟨g1, g2⟩ := ha
                      simp only at g1
                      subst g1
                      exact ⟨rfl, g2⟩
                    | ok p =>
                      obtain ⟨v, s4⟩ := p
                      have hvl := htg.2.2 _ ht
                      simp only at hvl
                      rw [ht] at ha
                      obtain ⟨g1, g2⟩ := ha
                      simp only at g1
                      subst g1
                      simp only [Res.ok_bind]
                      exact ih F _ s4 g2 (by omega) (by omega)
                  · simp only at ht1
                    subst ht1
                    rw [hz]
                    obtain ⟨d9, src9, v1, v2⟩ := attrLoop_end (F := F) (by omega) { tag with attr := tag.attr ++ [(n, t)] } ht2
                    simp only [v1]
                    exact ⟨rfl, v2⟩
                · simp only [ne_eq, h61, not_false_eq_true, if_true]
                  exact ignoreStart_at F _ _ _ q2 (by omega)

theorem readStartTag_name (c : Byte) (s : Bytes) (h47 : c ≠ 47#8) (h : c ≠ 33#8 ∨ ¬ [45#8, 45#8] <+: s) :
    readStartTag (60#8 :: c :: s) = (do
      let (name, s) ← Rbxlx.readName .tag (c :: s)
      if name = [] then
        let s ← ignoreStartTag s
        .ok (.ignored, {}, s)
      else readAttrs (s.length + 1) { startName := name } s) := by
  unfold readStartTag
  simp only
  split
  · rename_i heq; cases heq
  · rename_i heq; simp only [List.cons.injEq] at heq; exact absurd heq.1 h47
  · rename_i heq
    simp only [List.cons.injEq] at heq
    obtain ⟨rfl, rfl⟩ := heq
    rcases h with h | h
    · exact absurd rfl h
    · exact absurd ⟨_, rfl⟩ h
  · rfl

theorem afterName_at (F : Nat) (s : Bytes) {d : Dec ε} {src : Bytes} (h : At e b st d src s) (hF : s.length + 2 ≤ F) :
    Outcome2 e b st (exec e (do
        match ← name F .tag with
        | none => ignoreStart F "expected element name after <" {}
        | some n => attrLoop F { startName := n }) d src) (do
      let (name, s) ← Rbxlx.readName .tag s
      if name = [] then
        let s ← ignoreStartTag s
        .ok (.ignored, {}, s)
      else readAttrs (s.length + 1) { startName := name } s) := by
  obtain ⟨x, d4, src4, m1, m2⟩ := name_at .tag F s h (by omega)
  rw [exec_bind, m1]
  have hg := readName_good .tag s
  cases hr : Rbxlx.readName .tag s with
  | panic => exact absurd hr hg.1
  | err y =>
    rw [hr] at m2
    obtain ⟨rfl, m2⟩ := m2
    obtain ⟨d5, src5, n1, n2⟩ := ignoreStart_bad F (by omega) "expected element name after <" {} (src := src4) m2
    simp only [n1]
    exact ⟨rfl, n2⟩
  | ok p =>
    obtain ⟨n, rest⟩ := p
    have hrl := hg.2.2 _ hr
    simp only at hrl
    rw [hr] at m2
    obtain ⟨rfl, m2, m3⟩ := m2
    simp only [Res.ok_bind]
    by_cases hn : n = []
    · subst hn
      simp only [if_true]
      exact ignoreStart_at F _ _ _ m2 (by omega)
    · simp only [if_neg hn]
      exact attrLoop_at _ F _ rest m2 (Nat.lt_succ_self _) (by omega)

theorem decodeStartTag_at (F : Nat) (s : Bytes) {d : Dec ε} {src : Bytes} (h : At e b st d src s) (hF : s.length + 2 ≤ F) :
    Outcome2 e b st (exec e (decodeStartTag F) d src) (readStartTag s) := by
  cases s with
  | nil =>
    obtain ⟨d1, src1, h1, h2, h3, h4⟩ := getc_nil h
    rw [decodeStartTag, exec_bind, h1]
    exact ⟨rfl, h2.bad h3⟩
  | cons c s =>
    simp only [List.length_cons] at hF
    obtain ⟨d1, src1, h1, h2, h3, h4⟩ := getc_cons h
    rw [decodeStartTag, exec_bind, h1]
    by_cases h60 : c = 60#8
    · subst h60
      simp only [ne_eq, not_true_eq_false, if_false]
      cases s with
      | nil =>
        obtain ⟨d2, src2, k1, k2⟩ := mustgetc_nil h2
        rw [exec_bind, k1]
        exact ⟨rfl, k2⟩
      | cons c s =>
        simp only [List.length_cons] at hF
        obtain ⟨d2, src2, k1, k2, k3, k4⟩ := mustgetc_cons h2
        rw [exec_bind, k1]
        by_cases h47 : c = 47#8
        · subst h47
          simp only [if_true]
          obtain ⟨d3, m1, m2⟩ := exec_syntaxError "unexpected end tag" k2
          rw [exec_bind, m1]
          exact ⟨rfl, m2⟩
        · simp only [if_neg h47]
          by_cases h33 : c = 33#8
          · subst h33
            simp only [if_true, exec_bind]
            rcases matchBytes_at [45#8, 45#8] [] k2 k2.suffix with
              ⟨s1, d3, src3, m1, m2, m3, m4⟩ | ⟨m0, d3, src3, m2, m3, m4, m5⟩ | ⟨m0, m1, d3, src3, m2, m3, m4⟩
            · rw [m2]
              subst m1
              simp only [if_true]
              simp only [List.cons_append, List.nil_append, List.length_cons] at hF ⊢
              have h0 : exec e reset d3 src3 = ((), { d3 with buf := [] }, src3) := exec_modify _ _ _
              obtain ⟨x, d4, src4, n1, n2⟩ := commentLoop_at F s1 (At.buf m3 []) (by omega)
              rw [decodeComment, exec_bind, h0, exec_bind, n1]
              have hrs : readStartTag (60#8 :: 33#8 :: 45#8 :: 45#8 :: s1) =
                  (do let (t, s) ← readComment s1; .ok (StartState.comment, ({ comment := true, text := t } : Head), s)) := rfl
              rw [hrs]
              cases hr : readComment s1 with
              | panic => exact trivial
              | err y => rw [hr] at n2; obtain ⟨rfl, n2⟩ := n2; exact ⟨rfl, n2⟩
              | ok p =>
                rw [hr] at n2
                obtain ⟨rfl, n2, n3⟩ := n2
                simp only [List.nil_append] at n3
                refine ⟨?_, n2⟩
                simp only [if_true, exec_bind, exec_get, exec_pure, n3]
            · rw [m2]
              simp only [Option.some.injEq, Bool.false_eq_true, if_false]
              obtain ⟨d4, n1, n2, n3, n4⟩ := ungetc_at (c := 33#8) m3 m4 h2.suffix
              rw [exec_bind, n1, readStartTag_name _ s (by decide) (.inr m0)]
              exact afterName_at F (33#8 :: s) n2 (by simp only [List.length_cons]; omega)
            · rw [m2]
              simp only [reduceCtorEq, if_false]
              have hu : exec e (ungetc 33#8) d3 src3 = ((), { d3 with next := 33#8 :: d3.next }, src3) := by
                rw [ungetc, exec_modify]
                simp
              rw [exec_bind, hu]
              have hb : Bad e b { d3 with next := 33#8 :: d3.next } := ⟨m3.err, m3.warns, m3.line⟩
              have h0 : exec e reset { d3 with next := 33#8 :: d3.next } src3 = ((), { d3 with next := 33#8 :: d3.next, buf := [] }, src3) := exec_modify _ _ _
              have hb2 : Bad e b { d3 with next := 33#8 :: d3.next, buf := [] } := ⟨m3.err, m3.warns, m3.line⟩
              obtain ⟨d4, n1, n2, -⟩ := mustgetc_bad (src := src3) hb2
              have hname : exec e (name F .tag) { d3 with next := 33#8 :: d3.next } src3 = (none, d4, src3) := by
                rw [name, exec_bind, h0, exec_bind, readName, exec_bind, n1]
                rfl
              rw [exec_bind, hname]
              obtain ⟨d5, src5, w1, w2⟩ := ignoreStart_bad F (by omega) "expected element name after <" {} (src := src3) n2
              simp only [w1]
              have hs : s = [] ∨ s = [45#8] := by
                obtain ⟨t, ht⟩ := m1
                cases s with
                | nil => exact .inl rfl
                | cons c1 s =>
                  simp only [List.cons_append, List.cons.injEq] at ht
                  obtain ⟨rfl, ht⟩ := ht
                  cases s with
                  | nil => exact .inr rfl
                  | cons c2 s =>
                    simp only [List.cons_append, List.cons.injEq, List.append_eq_nil_iff] at ht
                    obtain ⟨rfl, rfl, -⟩ := ht
                    exact absurd List.prefix_rfl m0
              have hr : readStartTag (60#8 :: 33#8 :: s) = .err (.other "unexpected EOF") := by
                rcases hs with rfl | rfl <;> rfl
              rw [hr]
              exact ⟨rfl, w2⟩
          · simp only [if_neg h33, exec_bind, exec_pure, reduceCtorEq, if_false]
            obtain ⟨d3, n1, n2, n3, n4⟩ := ungetc_at (c := c) k2 k3 h2.suffix
            rw [n1, readStartTag_name c s h47 (.inl h33)]
            have := afterName_at F (c :: s) n2 (by simp only [List.length_cons]; omega)
            rw [exec_bind] at this
            exact this
    · simp only [ne_eq, h60, not_false_eq_true, if_true]
      obtain ⟨d2, k1, k2⟩ := exec_syntaxError "expected start tag" h2
      rw [exec_bind, k1]
      have : readStartTag (c :: s) = .err (.other "expected start tag") := by
        unfold readStartTag
        split
        · rename_i heq; cases heq
        · rename_i heq; simp only [List.cons.injEq] at heq; exact absurd heq.1 h60
        · rfl
      rw [this]
      exact ⟨rfl, k2⟩

/-! ## Other parts of a tag -/

/-- `decodeCData`: the section; or the end of the data has been met in its beginning. -/
theorem decodeCData_at (F : Nat) (s : Bytes) {d : Dec ε} {src : Bytes} (h : At e b st d src s) (hF : s.length + 1 < F) :
    Outcome e b st (exec e (decodeCData F) d src) (readCData s) ∨
      (s <+: cdataOpen ∧ s ≠ cdataOpen ∧ (exec e (decodeCData F) d src).1 = none ∧ Bad e b (exec e (decodeCData F) d src).2.1) := by
  rw [decodeCData, exec_bind]
  rcases matchBytes_at cdataOpen [] h h.suffix with
    ⟨s1, d3, src3, m1, m2, m3, m4⟩ | ⟨m0, d3, src3, m2, m3, m4, m5⟩ | ⟨m0, m1, d3, src3, m2, m3, m4⟩
  · left
    rw [m2]
    subst m1
    have hp : cdataOpen.isPrefixOf (cdataOpen ++ s1) = true := List.isPrefixOf_iff_prefix.2 ⟨s1, rfl⟩
    unfold readCData
    rw [if_pos hp, List.drop_left, exec_bind]
    simp only [List.length_append] at hF
    have ht := text_at .cdata F s1 m3 (by omega)
    rcases hx : exec e (text F .cdata) d3 src3 with ⟨y, d8, src8⟩
    rw [hx] at ht
    rcases ht with ht | ⟨-, h0, -⟩
    · cases hr : readText .cdata s1 with
      | panic => trivial
      | err z => rw [hr] at ht; obtain ⟨g1, g2⟩ := ht; simp only at g1; subst g1; exact ⟨rfl, g2⟩
      | ok p => rw [hr] at ht; obtain ⟨g1, g2⟩ := ht; simp only at g1; subst g1; exact ⟨rfl, g2⟩
    · exact absurd rfl h0
  · left
    rw [m2]
    have hp : ¬ cdataOpen.isPrefixOf s = true := fun hp => m0 (List.isPrefixOf_iff_prefix.1 hp)
    unfold readCData
    rw [if_neg hp]
    exact ⟨rfl, m3⟩
  · right
    rw [m2]
    exact ⟨m1, fun h0 => m0 (h0 ▸ List.prefix_rfl), rfl, m3⟩

theorem decodeEndTag_at (F : Nat) (s : Bytes) {d : Dec ε} {src : Bytes} (h : At e b st d src (60#8 :: 47#8 :: s)) (hF : s.length < F) :
    Outcome e b st (exec e (decodeEndTag F) d src) (readEndTag s) := by
  obtain ⟨d1, src1, h1, h2, h3, h4⟩ := getc_cons h
  obtain ⟨d2, src2, k1, k2, k3, k4⟩ := mustgetc_cons h2
  rw [decodeEndTag, exec_bind, h1]
  simp only [ne_eq, not_true_eq_false, if_false]
  rw [exec_bind, k1]
  simp only [ne_eq, not_true_eq_false, if_false]
  obtain ⟨x, d4, src4, m1, m2⟩ := name_at .tag F s k2 (by omega)
  rw [exec_bind, m1]
  have hg := readName_good .tag s
  have hfl : ∀ (d : Dec ε) src, exec e failed d src = (d.err.isSome, d, src) := fun d src => rfl
  unfold readEndTag
  cases hr : Rbxlx.readName .tag s with
  | panic => exact absurd hr hg.1
  | err y =>
    rw [hr] at m2
    obtain ⟨rfl, m2⟩ := m2
    obtain ⟨z, hz, -⟩ := m2.err
    simp only [exec_bind, hfl, hz, Option.isSome_some, if_true, exec_pure]
    exact ⟨rfl, m2⟩
  | ok p =>
    obtain ⟨n, rest⟩ := p
    have hrl := hg.2.2 _ hr
    simp only at hrl
    rw [hr] at m2
    obtain ⟨rfl, m2, m3⟩ := m2
    simp only [Res.ok_bind]
    by_cases hn : n = []
    · subst hn
      obtain ⟨d5, n1, n2⟩ := exec_syntaxError "expected element name after </" m2
      simp only [if_true, exec_bind, hfl, m3, Option.isSome_none, Bool.false_eq_true, if_false, n1, exec_pure]
      exact ⟨rfl, n2⟩
    · simp only [if_neg hn]
      obtain ⟨d5, src5, n1, n2, n3⟩ := space_at F rest m2 (by omega)
      rw [exec_bind, n1]
      cases hs : skipSpace rest with
      | nil =>
        rw [hs] at n2
        obtain ⟨d6, src6, q1, q2⟩ := mustgetc_nil n2
        rw [exec_bind, q1]
        exact ⟨rfl, q2⟩
      | cons c s2 =>
        rw [hs] at n2
        obtain ⟨d6, src6, q1, q2, q3, q4⟩ := mustgetc_cons n2
        rw [exec_bind, q1]
        by_cases hc : c = 62#8
        · subst hc
          exact ⟨rfl, q2⟩
        · simp only [ne_eq, hc, not_false_eq_true, if_true]
          obtain ⟨d7, w1, w2⟩ := exec_syntaxError "invalid characters between </ and >" q2
          rw [exec_bind, w1]
          split
          · rename_i heq; simp only [List.cons.injEq] at heq; exact absurd heq.1 hc
          · exact ⟨rfl, w2⟩

theorem checkRoot_at (tag : Head) (s : Bytes) {d : Dec ε} {src : Bytes} (h : At e b st d src s) :
    ∃ x d', exec e (checkRoot tag) d src = (x, d', src) ∧
      match Rbxlx.checkRoot tag with
      | .ok () => x = true ∧ d' = d
      | _ => x = false ∧ Bad e b d' := by
  unfold checkRoot
  cases hr : Rbxlx.checkRoot tag with
  | ok u => exact ⟨true, d, rfl, rfl, rfl⟩
  | panic =>
    obtain ⟨d7, w1, w2⟩ := exec_syntaxError "" h
    exact ⟨false, d7, by rw [exec_bind, w1]; rfl, rfl, w2⟩
  | err y =>
    have : ∃ msg, y = .other msg := by
      unfold Rbxlx.checkRoot at hr
      split at hr
      · cases hr; exact ⟨_, rfl⟩
      · split at hr
        · cases hr; exact ⟨_, rfl⟩
        · split at hr
          · split at hr
            · cases hr; exact ⟨_, rfl⟩
            · cases hr
          · cases hr; exact ⟨_, rfl⟩
    obtain ⟨msg, rfl⟩ := this
    obtain ⟨d7, w1, w2⟩ := exec_syntaxError msg h
    exact ⟨false, d7, by simp only; rw [exec_bind, w1]; rfl, rfl, w2⟩

end
end Dec
end Rbxlx

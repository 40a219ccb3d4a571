import Verif.Rbxlx.ReadSimTag
/-!
# The decoder that reads byte by byte does what the function on byte strings does: documents
-/
namespace Rbxlx
open Go Spec Rbxfile

variable {ε : Type} {e : Stop ε} {b : Bytes}

namespace Dec

/-- Data that ends within the beginning of a CDATA section is not a tag. -/
theorem cut_cdata (s : Bytes) (h1 : s <+: cdataOpen) (h2 : s ≠ cdataOpen) :
    readCData s = .ok (none, s) ∧
    ((∃ y, readText .plain (skipSpace s) = .err y) ∨
      ∃ t s', readText .plain (skipSpace s) = .ok (t, s') ∧ ∀ k, ∃ y, readTags k s' = .err y) := by
  obtain ⟨t, ht⟩ := h1
  have key : s = [] ∨ s = str "<" ∨ s = str "<!" ∨ s = str "<![" ∨ s = str "<![C" ∨ s = str "<![CD" ∨ s = str "<![CDA" ∨
      s = str "<![CDAT" ∨ s = str "<![CDATA" := by
    have hl : s.length < 9 := by
      have := congrArg List.length ht
      have h9 : cdataOpen.length = 9 := by decide
      simp only [List.length_append, h9] at this
      have : s.length ≠ 9 := by
        intro h
        have : t = [] := List.length_eq_zero_iff.1 (by omega)
        subst this
        simp only [List.append_nil] at ht
        exact h2 ht
      omega
    have hs : s = cdataOpen.take s.length := by rw [← ht, List.take_left]
    generalize s.length = n at hl hs
    subst hs
    have : ∀ n, n < 9 → (cdataOpen.take n = [] ∨ cdataOpen.take n = str "<" ∨ cdataOpen.take n = str "<!" ∨ cdataOpen.take n = str "<![" ∨
        cdataOpen.take n = str "<![C" ∨ cdataOpen.take n = str "<![CD" ∨ cdataOpen.take n = str "<![CDA" ∨
        cdataOpen.take n = str "<![CDAT" ∨ cdataOpen.take n = str "<![CDATA") := by decide
    exact this n hl
  have fin : ∀ (s : Bytes) (y : Err), skipSpace s = s → s.head? = some 60#8 → s[1]? ≠ some 47#8 → readStartTag s = .err y → ∀ k, ∃ y, readTags k s = .err y := by
    intro s y hs h60 h47 hst k
    match s, h60, h47 with
    | 60#8 :: s, _, h47 =>
      cases k with
      | zero => exact ⟨_, rfl⟩
      | succ k =>
        rw [readTags.eq_def]
        simp only
        rw [hs]
        split
        · rename_i heq; simp only [List.cons.injEq, true_and] at heq; subst heq; simp at h47
        · rename_i heq
          simp only [List.cons.injEq, true_and] at heq
          subst heq
          cases k with
          | zero => exact ⟨_, by rw [readTag]⟩
          | succ k =>
            rw [readTag.eq_def]
            simp only [Bool.false_eq_true, if_false, hst]
            exact ⟨_, rfl⟩
        · exact ⟨_, rfl⟩
  have one : ∀ s : Bytes, readCData s = .ok (none, s) → readText .plain (skipSpace s) = .ok ([], s) → skipSpace s = s → s.head? = some 60#8 →
      s[1]? ≠ some 47#8 → readStartTag s = .err (.other "unexpected EOF") → readCData s = .ok (none, s) ∧
    ((∃ y, readText .plain (skipSpace s) = .err y) ∨
      ∃ t s', readText .plain (skipSpace s) = .ok (t, s') ∧ ∀ k, ∃ y, readTags k s' = .err y) :=
    fun s g1 g2 g3 g4 g5 g6 => ⟨g1, .inr ⟨[], s, g2, fin s _ g3 g4 g5 g6⟩⟩
  rcases key with rfl | rfl | rfl | rfl | rfl | rfl | rfl | rfl | rfl
  · exact ⟨rfl, .inl ⟨_, rfl⟩⟩
  all_goals
    exact one _ (by decide +kernel) (by decide +kernel) (by decide +kernel) (by decide +kernel) (by decide +kernel) (by decide +kernel)

theorem tagLoop_end {F : Nat} (hF : 1 < F) {l : Int} {st : List Int} {d : Dec ε} {src : Bytes} (h : At e b (l :: st) d src []) :
    ∃ d' src', exec e (tagLoop F) d src = (none, d', src') ∧ Bad e b d' := by
  obtain ⟨F, rfl⟩ : ∃ k, F = k + 1 := ⟨F - 1, by omega⟩
  obtain ⟨d1, src1, h1, h2, h3⟩ := space_at F [] h (by simp; omega)
  obtain ⟨d2, src2, h4, h5, h6, h7⟩ := getc_nil h2
  have hm : exec e (D.modify fun d => { d with err := d.tagstack.head?.map .unmatched }) d2 src2 =
      ((), { d2 with err := d2.tagstack.head?.map .unmatched }, src2) := exec_modify _ _ _
  refine ⟨{ d2 with err := d2.tagstack.head?.map .unmatched }, src2, ?_, ?_⟩
  · rw [tagLoop, exec_bind, h1, exec_bind, h4]
    simp only
    rw [exec_bind, hm]
    rfl
  · refine ⟨⟨.unmatched l, ?_, ?_⟩, h5.warns, h5.lineOf⟩
    · show d2.tagstack.head?.map _ = _
      rw [h5.stack]
      rfl
    · exact h5.lines l (by simp)

theorem decodeTags_at : ∀ (f : Nat),
    (∀ (F : Nat) (root : Bool) (st : List Int) (s : Bytes) (d : Dec ε) (src : Bytes), At e b st d src s → d.err = none →
      2 * s.length + 1 ≤ f → f + 3 ≤ F → Outcome e b st (exec e (decodeTag F root) d src) (readTag f root s)) ∧
    (∀ (F : Nat) (l : Int) (st : List Int) (s : Bytes) (d : Dec ε) (src : Bytes), At e b (l :: st) d src s →
      2 * s.length + 2 ≤ f → f + 3 ≤ F → Outcome2 e b st (exec e (tagLoop F) d src) (readTags f s)) := by
  intro f
  induction f with
  | zero => exact ⟨fun F root st s d src _ _ hf => (by omega), fun F l st s d src _ hf => (by omega)⟩
  | succ f ih =>
    have hfl : ∀ (d : Dec ε) src, exec e failed d src = (d.err.isSome, d, src) := fun d src => rfl
    refine ⟨?_, ?_⟩
    · intro F root st s d src h hn hf hF
      obtain ⟨F, rfl⟩ : ∃ k, F = k + 1 := ⟨F - 1, by omega⟩
      rw [decodeTag, exec_bind, hfl, hn]
      simp only [Option.isSome_none, Bool.false_eq_true, if_false]
      have hstart : ∃ d1 src1, exec e (leading F root) d src = ((), d1, src1) ∧
          At e b st d1 src1 (if root then skipSpace s else s) := by
        cases root with
        | false => exact ⟨d, src, rfl, h⟩
        | true =>
          obtain ⟨d1, src1, h1, h2, -⟩ := space_at F s h (by omega)
          exact ⟨d1, src1, h1, h2⟩
      obtain ⟨d1, src1, h1, h2⟩ := hstart
      have hl0 : (if root then skipSpace s else s).length ≤ s.length := by
        cases root with
        | false => exact Nat.le_refl _
        | true => exact skipSpace_length s
      rw [readTag]
      generalize (if root then skipSpace s else s) = s0 at h2 hl0 ⊢
      rw [exec_bind, h1, exec_bind]
      have hst := decodeStartTag_at F s0 h2 (by omega)
      rcases hx : exec e (decodeStartTag F) d1 src1 with ⟨x, d2, src2⟩
      rw [hx] at hst
      have hg := readStartTag_good s0
      cases hr : readStartTag s0 with
      | panic => exact absurd hr hg.1
      | err y =>
        rw [hr] at hst
        obtain ⟨k1, k2⟩ := hst
        simp only at k1
        subst k1
        exact ⟨rfl, k2⟩
      | ok p =>
        obtain ⟨state, tag, s1⟩ := p
        have hl1 := hg.2.2 _ hr
        simp only at hl1
        have hpos : 0 < s0.length := by
          cases s0 with
          | nil => cases hr
          | cons c s => simp
        rw [hr] at hst
        obtain ⟨k1, k2⟩ := hst
        simp only at k1 k2
        subst k1
        cases state with
        | comment => exact ⟨rfl, k2⟩
        | _ =>
          simp only
          have hck : ∃ x d3, exec e (rootOk root tag) d2 src2 = (x, d3, src2) ∧
              match (if root then Rbxlx.checkRoot tag else .ok ()) with
              | .ok () => x = true ∧ d3 = d2
              | _ => x = false ∧ Bad e b d3 := by
            cases root with
            | false => exact ⟨true, d2, rfl, rfl, rfl⟩
            | true => exact checkRoot_at tag s1 k2
          obtain ⟨x, d3, m1, m2⟩ := hck
          generalize (if root then Rbxlx.checkRoot tag else Res.ok ()) = rc at m2 ⊢
          rw [exec_bind, m1]
          cases rc with
          | panic => trivial
          | err y => obtain ⟨rfl, m2⟩ := m2; exact ⟨rfl, m2⟩
          | ok u =>
            obtain ⟨rfl, rfl⟩ := m2
            simp only [Bool.not_true, Bool.false_eq_true, if_false]
            cases hem : tag.empty with
            | true => exact ⟨rfl, k2⟩
            | false =>
              simp only [Bool.false_eq_true, if_false]
              have hpush : exec e (D.modify fun d => { d with tagstack := d.line :: d.tagstack }) d3 src2 =
                  ((), { d3 with tagstack := d3.line :: d3.tagstack }, src2) := exec_modify _ _ _
              have hat : At e b (d3.line :: st) { d3 with tagstack := d3.line :: d3.tagstack } src2 s1 := by
                refine ⟨k2.rest, k2.suffix, k2.line, ?_, ?_, k2.err, k2.warns⟩
                · show d3.line :: d3.tagstack = _
                  rw [k2.stack]
                · intro l hl
                  rcases List.mem_cons.1 hl with rfl | hl
                  · exact k2.lineOf
                  · exact k2.lines l hl
              rw [exec_bind, hpush]
              obtain ⟨d4, src4, n1, n2, -⟩ := space_at F s1 hat (by omega)
              have hl2 := skipSpace_length s1
              rw [exec_bind, n1]
              have hcd := decodeCData_at F (skipSpace s1) n2 (by omega)
              rcases hx2 : exec e (decodeCData F) d4 src4 with ⟨x, d5, src5⟩
              rw [hx2] at hcd
              rw [exec_bind, hx2]
              have hcg := readCData_good (skipSpace s1)
              rcases hcd with hcd | ⟨q1, q2, q3, q4⟩
              · cases hr2 : readCData (skipSpace s1) with
                | panic => exact absurd hr2 hcg.1
                | err y => rw [hr2] at hcd; obtain ⟨g1, g2⟩ := hcd; simp only at g1; subst g1; exact ⟨rfl, g2⟩
                | ok p =>
                  obtain ⟨cd, s2⟩ := p
                  have hl3 := hcg.2.2 _ hr2
                  simp only at hl3
                  rw [hr2] at hcd
                  obtain ⟨g1, g2⟩ := hcd
                  simp only at g1 g2
                  subst g1
                  simp only
                  obtain ⟨d6, src6, w1, w2, -⟩ := space_at F s2 g2 (by omega)
                  have hl4 := skipSpace_length s2
                  rw [exec_bind, w1]
                  have htx := text_at .plain F (skipSpace s2) w2 (by omega)
                  rcases hx3 : exec e (text F .plain) d6 src6 with ⟨x, d7, src7⟩
                  rw [hx3] at htx
                  rw [exec_bind, hx3]
                  have htg := readText_good .plain (skipSpace s2)
                  rcases htx with htx | ⟨⟨y, hy⟩, -, t, v1, v2⟩
                  · cases hr3 : readText .plain (skipSpace s2) with
                    | panic => exact absurd hr3 htg.1
                    | err y => rw [hr3] at htx; obtain ⟨g1, g2⟩ := htx; simp only at g1; subst g1; exact ⟨rfl, g2⟩
                    | ok p =>
                      obtain ⟨t, s3⟩ := p
                      have hl5 := htg.2.2 _ hr3
                      simp only at hl5
                      rw [hr3] at htx
                      obtain ⟨g1, g2⟩ := htx
                      simp only at g1 g2
                      subst g1
                      simp only
                      have ht := ih.2 F _ st s3 d7 src7 g2 (by omega) (by omega)
                      rcases hx4 : exec e (tagLoop F) d7 src7 with ⟨z, d8, src8⟩
                      rw [hx4] at ht
                      rw [exec_bind, hx4]
                      cases hr4 : readTags f s3 with
                      | panic => trivial
                      | err z => rw [hr4] at ht; obtain ⟨g1, g2⟩ := ht; simp only at g1; subst g1; exact ⟨rfl, g2⟩
                      | ok p => rw [hr4] at ht; obtain ⟨g1, g2⟩ := ht; simp only at g1; subst g1; exact ⟨rfl, g2⟩
                  · simp only at v1
                    subst v1
                    rw [hy]
                    obtain ⟨d8, src8, z1, z2⟩ := tagLoop_end (F := F) (by omega) v2
                    simp only
                    rw [exec_bind, z1]
                    exact ⟨rfl, z2⟩
              · simp only at q3
                subst q3
                obtain ⟨c1, c2⟩ := cut_cdata _ q1 q2
                rw [c1]
                simp only
                rcases c2 with ⟨y, hy⟩ | ⟨t, s', hy, hk⟩
                · rw [hy]; exact ⟨rfl, q4⟩
                · rw [hy]
                  obtain ⟨z, hz⟩ := hk f
                  simp only [hz]
                  exact ⟨rfl, q4⟩
    · intro F l st s d src h hf hF
      obtain ⟨F, rfl⟩ : ∃ k, F = k + 1 := ⟨F - 1, by omega⟩
      obtain ⟨d1, src1, h1, h2, h3⟩ := space_at F s h (by omega)
      have hlen := skipSpace_length s
      rw [tagLoop, exec_bind, h1, readTags]
      cases hs : skipSpace s with
      | nil =>
        rw [hs] at h2
        obtain ⟨d2, src2, h4, h5, h6, h7⟩ := getc_nil h2
        have hm : exec e (D.modify fun d => { d with err := d.tagstack.head?.map .unmatched }) d2 src2 =
            ((), { d2 with err := d2.tagstack.head?.map .unmatched }, src2) := exec_modify _ _ _
        rw [exec_bind, h4]
        simp only
        rw [exec_bind, hm]
        refine ⟨rfl, ⟨.unmatched l, ?_, ?_⟩, h5.warns, h5.lineOf⟩
        · show d2.tagstack.head?.map _ = _
          rw [h5.stack]
          rfl
        · exact h5.lines l (by simp)
      | cons c s1 =>
        rw [hs] at h2 hlen
        simp only [List.length_cons] at hlen
        obtain ⟨d2, src2, k1, k2, k3, k4⟩ := getc_cons h2
        rw [exec_bind, k1]
        by_cases h60 : c = 60#8
        · subst h60
          simp only [ne_eq, not_true_eq_false, if_false]
          cases s1 with
          | nil =>
            obtain ⟨d3, src3, m1, m2⟩ := mustgetc_nil k2
            rw [exec_bind, m1]
            simp only
            obtain ⟨y, hy⟩ : ∃ y, readTag f false [60#8] = .err y := by
              cases f with
              | zero => exact ⟨_, by rw [readTag]⟩
              | succ f => rw [readTag.eq_def]; exact ⟨_, rfl⟩
            rw [hy]
            exact ⟨rfl, m2⟩
          | cons c1 s2 =>
            obtain ⟨d3, src3, m1, m2, m3, m4⟩ := mustgetc_cons k2
            rw [exec_bind, m1]
            simp only [List.length_cons] at hlen
            by_cases h47 : c1 = 47#8
            · subst h47
              simp only [if_true]
              obtain ⟨d4, n1, n2, n3, n4⟩ := ungetc_at (c := 47#8) m2 m3 k2.suffix
              obtain ⟨d5, q1, q2, q3, q4⟩ := ungetc_at (c := 60#8) n2 n3 h2.suffix
              rw [exec_bind, n1, exec_bind, q1, exec_bind]
              have he := decodeEndTag_at F s2 q2 (by omega)
              rcases hx : exec e (decodeEndTag F) d5 src3 with ⟨y, d6, src6⟩
              rw [hx] at he
              cases hr : readEndTag s2 with
              | panic => trivial
              | err z => rw [hr] at he; obtain ⟨g1, g2⟩ := he; simp only at g1; subst g1; exact ⟨rfl, g2⟩
              | ok p =>
                obtain ⟨n, s3⟩ := p
                rw [hr] at he
                obtain ⟨g1, g2⟩ := he
                simp only at g1 g2
                subst g1
                have hm : exec e (D.modify fun d => { d with tagstack := d.tagstack.tail }) d6 src6 =
                    ((), { d6 with tagstack := d6.tagstack.tail }, src6) := exec_modify _ _ _
                simp only
                rw [exec_bind, hm]
                refine ⟨rfl, g2.rest, g2.suffix, g2.line, ?_, fun x hx => g2.lines x (List.mem_cons_of_mem _ hx), g2.err, g2.warns⟩
                show d6.tagstack.tail = st
                rw [g2.stack]
                rfl
            · simp only [if_neg h47]
              split
              · rename_i heq; simp only [List.cons.injEq] at heq; exact absurd heq.2.1 h47
              case h_3 hne => exact absurd rfl (hne _)
              rename_i heq
              simp only [List.cons.injEq, true_and] at heq
              subst heq
              obtain ⟨d4, n1, n2, n3, n4⟩ := ungetc_at (c := c1) m2 m3 k2.suffix
              obtain ⟨d5, q1, q2, q3, q4⟩ := ungetc_at (c := 60#8) n2 n3 h2.suffix
              rw [exec_bind, n1, exec_bind, q1, exec_bind]
              have hd := ih.1 F false (l :: st) (60#8 :: c1 :: s2) d5 src3 q2 q3 (by simp only [List.length_cons]; omega) (by omega)
              rcases hx : exec e (decodeTag F false) d5 src3 with ⟨y, d6, src6⟩
              rw [hx] at hd
              have hg := readTag_good f false (60#8 :: c1 :: s2) (by simp only [List.length_cons]; omega)
              cases hr : readTag f false (60#8 :: c1 :: s2) with
              | panic => exact absurd hr hg.1
              | err z => rw [hr] at hd; obtain ⟨g1, g2⟩ := hd; simp only at g1; subst g1; exact ⟨rfl, g2⟩
              | ok p =>
                obtain ⟨t, s3⟩ := p
                have hl3 := hg.2.2 _ hr
                simp only [List.length_cons] at hl3
                rw [hr] at hd
                obtain ⟨g1, g2⟩ := hd
                simp only at g1 g2
                subst g1
                simp only
                rw [exec_bind]
                have ht := ih.2 F l st s3 d6 src6 g2 (by omega) (by omega)
                rcases hx2 : exec e (tagLoop F) d6 src6 with ⟨z, d7, src7⟩
                rw [hx2] at ht
                cases hr2 : readTags f s3 with
                | panic => trivial
                | err z => rw [hr2] at ht; obtain ⟨g1, g2⟩ := ht; simp only at g1; subst g1; exact ⟨rfl, g2⟩
                | ok p => rw [hr2] at ht; obtain ⟨g1, g2⟩ := ht; simp only at g1; subst g1; exact ⟨rfl, g2⟩
        · simp only [ne_eq, h60, not_false_eq_true, if_true]
          obtain ⟨d3, m1, m2⟩ := exec_syntaxError "expected tag" k2
          rw [exec_bind, m1]
          split
          · rename_i heq; simp only [List.cons.injEq] at heq; exact absurd heq.1 h60
          · rename_i heq; simp only [List.cons.injEq] at heq; exact absurd heq.1 h60
          · exact ⟨rfl, m2⟩

/-- The loop that reads the suffix reads everything, and ignores the error. -/
theorem suffixLoop_at {st : List Int} : ∀ (F : Nat) (s : Bytes) {d : Dec ε} {src : Bytes}, At e b st d src s → s.length < F →
    ∃ d' src', exec e (suffixLoop F) d src = ((), d', src') ∧ At e b st d' src' [] ∧ d'.buf = d.buf ++ s
  | 0, s, d, src, _, hF => by omega
  | F + 1, [], d, src, h, _ => by
    obtain ⟨d', src', h1, h2, h3, h4⟩ := getc_nil h
    exact ⟨d', src', by rw [suffixLoop, exec_bind, h1]; rfl, h2, by rw [h4]; simp⟩
  | F + 1, c :: s, d, src, h, hF => by
    obtain ⟨d1, src1, h1, h2, h3, h4⟩ := getc_cons h
    simp only [List.length_cons] at hF
    obtain ⟨d2, k1, k2, k3, k4⟩ := exec_write h2 [c]
    obtain ⟨d', src', m1, m2, m3⟩ := suffixLoop_at F s k2 (by omega)
    refine ⟨d', src', ?_, m2, by rw [m3, k4, h4]; simp⟩
    rw [suffixLoop, exec_bind, h1]
    simp only
    rw [exec_bind, k1]
    exact m1

theorem At.start (e : Stop ε) (b : Bytes) : At e b [] {} b b :=
  ⟨rfl, List.suffix_rfl, by show (1 : Int) = _; omega, rfl, by simp, .inl rfl, by intro w hw; cases hw⟩

/-- `ReadFrom` byte by byte: the result is that of `ReadFrom` on the byte string; the lines of an error and of the warnings
are lines of the text. -/
theorem readFrom_at (e : Stop ε) (b : Bytes) (F : Nat) (hF : 2 * b.length + 5 ≤ F) :
    match Rbxlx.readFrom b with
    | .ok (t, suffix) => (exec e (readFrom F) {} b).1 = some (t, suffix) ∧ ∀ w ∈ (exec e (readFrom F) {} b).2.1.warns, LineOf b w.2
    | _ => (exec e (readFrom F) {} b).1 = none ∧ Bad e b (exec e (readFrom F) {} b).2.1 := by
  unfold Rbxlx.readFrom
  have h := (decodeTags_at (e := e) (b := b) (2 * b.length + 2)).1 F true [] b {} b (At.start e b) rfl (by omega) (by omega)
  have hg := readTag_good (2 * b.length + 2) true b (by omega)
  rw [readFrom, exec_bind]
  rcases hx : exec e (decodeTag F true) {} b with ⟨x, d1, src1⟩
  rw [hx] at h
  cases hr : readTag (2 * b.length + 2) true b with
  | panic => exact absurd hr hg.1
  | err y => rw [hr] at h; obtain ⟨g1, g2⟩ := h; simp only at g1; subst g1; exact ⟨rfl, g2⟩
  | ok p =>
    obtain ⟨t, s⟩ := p
    have hl := hg.2.2 _ hr
    simp only at hl
    rw [hr] at h
    obtain ⟨g1, g2⟩ := h
    simp only at g1 g2
    subst g1
    have h0 : exec e reset d1 src1 = ((), { d1 with buf := [] }, src1) := exec_modify _ _ _
    obtain ⟨d', src', m1, m2, m3⟩ := suffixLoop_at F s (At.buf g2 []) (by omega)
    simp only [List.nil_append] at m3
    simp only
    rw [exec_bind, h0, exec_bind, m1, exec_bind, exec_get]
    exact ⟨by rw [exec_pure, m3], m2.warns⟩

end Dec
end Rbxlx

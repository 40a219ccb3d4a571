import Verif.Rbxlx.ReadIO
import Verif.Rbxlx.Total
/-!
# The decoder that reads byte by byte does what the function on byte strings does
-/
namespace Rbxlx
open Go Spec Rbxfile

variable {ε α β : Type} {e : Stop ε} {b : Bytes}

/-! ## Running a method -/

/-- The method with the bytes `src`, which are followed by `e`. -/
def exec (e : Stop ε) (m : D ε α) (d : Dec ε) (src : Bytes) : α × Dec ε × Bytes :=
  (((m d).runOn e src).1.1, ((m d).runOn e src).1.2, ((m d).runOn e src).2)

theorem exec_bind (m : D ε α) (f : α → D ε β) (d : Dec ε) (src : Bytes) :
    exec e (m >>= f) d src = exec e (f (exec e m d src).1) (exec e m d src).2.1 (exec e m d src).2.2 := by
  show exec e (D.bind m f) d src = _
  simp only [exec, D.bind, Prog.runOn_bind]

theorem exec_pure (a : α) (d : Dec ε) (src : Bytes) : exec e (pure a : D ε α) d src = (a, d, src) := rfl
theorem exec_get (d : Dec ε) (src : Bytes) : exec e D.get d src = (d, d, src) := rfl
theorem exec_modify (f : Dec ε → Dec ε) (d : Dec ε) (src : Bytes) : exec e (D.modify f) d src = ((), f d, src) := rfl

/-! ## The state -/

/-- A line number of the text: that of the position after some beginning of it. -/
def LineOf (b : Bytes) (l : Int) : Prop := ∃ p, p <+: b ∧ l = 1 + (p.count 10#8 : Int)

/-- The decoder has `s` before it, a part at the end of `b`; it may have met the end. -/
structure At (e : Stop ε) (b : Bytes) (st : List Int) (d : Dec ε) (src s : Bytes) : Prop where
  rest : d.next ++ src = s
  suffix : s <:+ b
  line : d.line = 1 + (b.count 10#8 : Int) - (s.count 10#8 : Int)
  stack : d.tagstack = st
  lines : ∀ l ∈ st, LineOf b l
  err : d.err = none ∨ (s = [] ∧ d.err = some (.stop e))
  warns : ∀ w ∈ d.warns, LineOf b w.2

/-- An error that may be reported for `b`. -/
def GoodErr (e : Stop ε) (b : Bytes) : DErr ε → Prop
  | .stop x => x = e
  | .syntax _ l => LineOf b l
  | .unmatched l => LineOf b l
  | .fuel => False

/-- There is an error. -/
structure Bad (e : Stop ε) (b : Bytes) (d : Dec ε) : Prop where
  err : ∃ x, d.err = some x ∧ GoodErr e b x
  warns : ∀ w ∈ d.warns, LineOf b w.2
  line : LineOf b d.line

theorem At.lineOf {st : List Int} {d : Dec ε} {src s : Bytes} (h : At e b st d src s) : LineOf b d.line := by
  obtain ⟨p, hp⟩ := h.suffix
  refine ⟨p, ⟨s, hp⟩, ?_⟩
  rw [h.line, ← hp, List.count_append]
  omega

theorem At.bad {st : List Int} {d : Dec ε} {src s : Bytes} (h : At e b st d src s) {x : DErr ε} (hx : d.err = some x) : Bad e b d := by
  refine ⟨⟨x, hx, ?_⟩, h.warns, h.lineOf⟩
  rcases h.err with h1 | ⟨-, h1⟩
  · rw [h1] at hx; cases hx
  · rw [h1] at hx; cases hx; rfl

/-- The result of a method corresponds to that of a function on byte strings. -/
def Outcome (e : Stop ε) (b : Bytes) (st : List Int) (x : Option α × Dec ε × Bytes) (r : Res (α × Bytes)) : Prop :=
  match r with
  | .ok (a, s) => x.1 = some a ∧ At e b st x.2.1 x.2.2 s
  | .err _ => x.1 = none ∧ Bad e b x.2.1
  | .panic => True

namespace Dec

/-! ## Single bytes -/

section
variable {st : List Int} {d : Dec ε} {src s : Bytes} {c : Byte}

theorem getc_cons (h : At e b st d src (c :: s)) : ∃ d' src', exec e getc d src = (some c, d', src') ∧
    At e b st d' src' s ∧ d'.err = none ∧ d'.buf = d.buf := by
  have herr : d.err = none := by
    rcases h.err with h1 | ⟨h1, -⟩
    · exact h1
    · cases h1
  have hs : s <:+ b := (List.suffix_cons c s).trans h.suffix
  have hline : (d.line + (if c = 10#8 then 1 else 0)) = 1 + (b.count 10#8 : Int) - (s.count 10#8 : Int) := by
    rw [h.line, List.count_cons]
    by_cases hc : c = 10#8
    · simp [hc]; omega
    · simp [hc]
  have hr := h.rest
  cases hn : d.next with
  | nil =>
    rw [hn] at hr
    simp only [List.nil_append] at hr
    subst hr
    refine ⟨{ d with line := d.line + (if c = 10#8 then 1 else 0) }, s, ?_, ⟨?_, hs, hline, h.stack, h.lines, .inl herr, h.warns⟩, herr, rfl⟩
    · simp [exec, getc, herr, hn, Prog.runOn]
    · show d.next ++ s = s; rw [hn]; rfl
  | cons c' rest =>
    rw [hn] at hr
    simp only [List.cons_append, List.cons.injEq] at hr
    obtain ⟨rfl, hr⟩ := hr
    refine ⟨{ d with next := rest, line := d.line + (if c' = 10#8 then 1 else 0) }, src, ?_,
      ⟨hr, hs, hline, h.stack, h.lines, .inl herr, h.warns⟩, herr, rfl⟩
    simp [exec, getc, herr, hn, Prog.runOn]

theorem getc_err {x : DErr ε} (h : d.err = some x) : exec e getc d src = (none, d, src) := by
  simp [exec, getc, h, Prog.runOn]

theorem getc_nil (h : At e b st d src []) : ∃ d' src', exec e getc d src = (none, d', src') ∧
    At e b st d' src' [] ∧ d'.err = some (.stop e) ∧ d'.buf = d.buf := by
  rcases h.err with herr | ⟨-, herr⟩
  · have hr := h.rest
    simp only [List.append_eq_nil_iff] at hr
    obtain ⟨hn, rfl⟩ := hr
    refine ⟨{ d with err := some (.stop e) }, [], ?_, ⟨?_, h.suffix, h.line, h.stack, h.lines, .inr ⟨rfl, rfl⟩, h.warns⟩, rfl, rfl⟩
    · simp [exec, getc, herr, hn, Prog.runOn]
    · show d.next ++ [] = []; rw [hn]; rfl
  · exact ⟨d, src, getc_err herr, h, herr, rfl⟩

theorem exec_ifEOF (msg : String) (h : Bad e b d) : ∃ d', exec e (ifEOF msg) d src = ((), d', src) ∧ Bad e b d' ∧ d'.buf = d.buf := by
  obtain ⟨⟨x, hx, hg⟩, hw, hl⟩ := h
  have key : ∀ d', ifEOF (ε := ε) msg d = .ret ((), d') → exec e (ifEOF msg) d src = ((), d', src) := by
    intro d' h; unfold exec; rw [h]; rfl
  by_cases h1 : x = .stop .eof
  · subst h1
    refine ⟨{ d with err := some (.syntax msg d.line) }, key _ ?_, ⟨⟨_, rfl, hl⟩, hw, hl⟩, rfl⟩
    simp only [ifEOF, D.modify, hx]
  · refine ⟨d, key _ ?_, ⟨⟨x, hx, hg⟩, hw, hl⟩, rfl⟩
    simp only [ifEOF, D.modify, hx]
    split
    · rename_i heq; simp only [Option.some.injEq] at heq; exact absurd heq h1
    · rfl

theorem mustgetc_bad (h : Bad e b d) : ∃ d', exec e mustgetc d src = (none, d', src) ∧ Bad e b d' ∧ d'.buf = d.buf := by
  obtain ⟨x, hx, -⟩ := h.err
  obtain ⟨d', h1, h2, h3⟩ := exec_ifEOF (src := src) "unexpected EOF" h
  refine ⟨d', ?_, h2, h3⟩
  simp only [mustgetc, exec_bind, getc_err hx, h1, exec_pure]

theorem mustgetc_cons (h : At e b st d src (c :: s)) : ∃ d' src', exec e mustgetc d src = (some c, d', src') ∧
    At e b st d' src' s ∧ d'.err = none ∧ d'.buf = d.buf := by
  obtain ⟨d', src', h1, h2, h3, h4⟩ := getc_cons h
  refine ⟨d', src', ?_, h2, h3, h4⟩
  simp only [mustgetc, exec_bind, h1, exec_pure]

theorem mustgetc_nil (h : At e b st d src []) : ∃ d' src', exec e mustgetc d src = (none, d', src') ∧ Bad e b d' := by
  obtain ⟨d1, src1, h1, h2, h3, -⟩ := getc_nil h
  obtain ⟨d2, h4, h5, -⟩ := exec_ifEOF (src := src1) "unexpected EOF" (h2.bad h3)
  refine ⟨d2, src1, ?_, h5⟩
  simp only [mustgetc, exec_bind, h1, h4, exec_pure]

theorem ungetc_at (h : At e b st d src s) (hn : d.err = none) (hs : (c :: s) <:+ b) : ∃ d', exec e (ungetc c) d src = ((), d', src) ∧
    At e b st d' src (c :: s) ∧ d'.err = none ∧ d'.buf = d.buf := by
  refine ⟨_, exec_modify _ _ _, ⟨?_, hs, ?_, h.stack, h.lines, .inl hn, h.warns⟩, hn, rfl⟩
  · show c :: d.next ++ src = c :: s
    rw [List.cons_append, h.rest]
  · show d.line - (if c = 10#8 then 1 else 0) = _
    rw [h.line, List.count_cons]
    by_cases hc : c = 10#8
    · simp [hc]; omega
    · simp [hc]

theorem exec_syntaxError (msg : String) (h : At e b st d src s) : ∃ d', exec e (syntaxError msg) d src = ((), d', src) ∧ Bad e b d' :=
  ⟨_, exec_modify _ _ _, ⟨_, rfl, h.lineOf⟩, h.warns, h.lineOf⟩

theorem At.buf (h : At e b st d src s) (x : Bytes) : At e b st { d with buf := x } src s :=
  ⟨h.rest, h.suffix, h.line, h.stack, h.lines, h.err, h.warns⟩

theorem exec_write (h : At e b st d src s) (x : Bytes) : ∃ d', exec e (write x) d src = ((), d', src) ∧
    At e b st d' src s ∧ d'.err = d.err ∧ d'.buf = d.buf ++ x :=
  ⟨_, exec_modify _ _ _, At.buf h _, rfl, rfl⟩

end

/-! ## Strings of bytes -/

section
variable {st : List Int}

theorem ungetAll_at : ∀ (x : Bytes) {d : Dec ε} {src s : Bytes}, At e b st d src s → d.err = none → (x.reverse ++ s) <:+ b →
    ∃ d', exec e (ungetAll x) d src = ((), d', src) ∧ At e b st d' src (x.reverse ++ s) ∧ d'.err = none ∧ d'.buf = d.buf
  | [], d, src, s, h, hn, _ => ⟨d, rfl, h, hn, rfl⟩
  | c :: x, d, src, s, h, hn, hs => by
    have hs' : (x.reverse ++ c :: s) <:+ b := by simpa using hs
    obtain ⟨d1, h1, h2, h3, h4⟩ := ungetc_at (c := c) h hn ((List.suffix_append _ _).trans hs')
    obtain ⟨d2, h5, h6, h7, h8⟩ := ungetAll_at x h2 h3 hs'
    refine ⟨d2, ?_, by simpa using h6, h7, by rw [h8, h4]⟩
    simp only [ungetAll, exec_bind, h1, h5]

/-- `match`: the bytes are skipped if they are there; otherwise nothing changes, unless the end is met. -/
theorem matchBytes_at : ∀ (pat seen : Bytes) {d : Dec ε} {src s : Bytes}, At e b st d src s → (seen.reverse ++ s) <:+ b →
    (∃ s1 d' src', s = pat ++ s1 ∧ exec e (matchBytes seen pat) d src = (some true, d', src') ∧ At e b st d' src' s1 ∧ d'.buf = d.buf) ∨
    (¬ pat <+: s ∧ ∃ d' src', exec e (matchBytes seen pat) d src = (some false, d', src') ∧ At e b st d' src' (seen.reverse ++ s) ∧
      d'.err = none ∧ d'.buf = d.buf) ∨
    (¬ pat <+: s ∧ s <+: pat ∧ ∃ d' src', exec e (matchBytes seen pat) d src = (none, d', src') ∧ Bad e b d' ∧ d'.buf = d.buf)
  | [], seen, d, src, s, h, _ => .inl ⟨s, d, src, rfl, by simp only [matchBytes, exec_pure], h, rfl⟩
  | c :: pat, seen, d, src, [], h, _ => by
    obtain ⟨d', src', h1, h2, h3, h4⟩ := getc_nil h
    refine .inr (.inr ⟨by simp, List.nil_prefix, d', src', ?_, h2.bad h3, h4⟩)
    simp only [matchBytes, exec_bind, h1, exec_pure]
  | c :: pat, seen, d, src, c' :: s, h, hs => by
    obtain ⟨d1, src1, h1, h2, h3, h4⟩ := getc_cons h
    by_cases hc : c' = c
    · subst hc
      have hs' : ((c' :: seen).reverse ++ s) <:+ b := by simpa using hs
      rcases matchBytes_at pat (c' :: seen) h2 hs' with ⟨s1, d', src', h5, h6, h7, h8⟩ | ⟨h5, d', src', h6, h7, h8, h9⟩ | ⟨h5, h50, d', src', h6, h7, h8⟩
      · refine .inl ⟨s1, d', src', by rw [h5]; rfl, ?_, h7, by rw [h8, h4]⟩
        rw [matchBytes, exec_bind, h1]
        simp only [if_true]
        exact h6
      · refine .inr (.inl ⟨fun hp => h5 (List.cons_prefix_cons.1 hp).2, d', src', ?_, by simpa using h7, h8, by rw [h9, h4]⟩)
        rw [matchBytes, exec_bind, h1]
        simp only [if_true]
        exact h6
      · refine .inr (.inr ⟨fun hp => h5 (List.cons_prefix_cons.1 hp).2, List.cons_prefix_cons.2 ⟨rfl, h50⟩, d', src', ?_, h7, by rw [h8, h4]⟩)
        rw [matchBytes, exec_bind, h1]
        simp only [if_true]
        exact h6
    · obtain ⟨d2, h5, h6, h7, h8⟩ := ungetc_at (c := c') h2 h3 h.suffix
      obtain ⟨d3, h9, h10, h11, h12⟩ := ungetAll_at seen h6 h7 hs
      refine .inr (.inl ⟨fun hp => hc (List.cons_prefix_cons.1 hp).1.symm, d3, src1, ?_, h10, h11, by rw [h12, h8, h4]⟩)
      rw [matchBytes, exec_bind, h1]
      simp only [if_neg hc, exec_bind, h5, h9, exec_pure]

theorem skipSpace_nil : skipSpace [] = [] := rfl
theorem skipSpace_cons (c : Byte) (s : Bytes) : skipSpace (c :: s) = if isSpace c then skipSpace s else c :: s := by
  unfold skipSpace; rw [List.dropWhile_cons]

theorem space_at : ∀ (F : Nat) (s : Bytes) {d : Dec ε} {src : Bytes}, At e b st d src s → s.length < F →
    ∃ d' src', exec e (space F) d src = ((), d', src') ∧ At e b st d' src' (skipSpace s) ∧ d'.buf = d.buf
  | 0, s, d, src, _, hF => by omega
  | F + 1, [], d, src, h, _ => by
    obtain ⟨d', src', h1, h2, h3, h4⟩ := getc_nil h
    exact ⟨d', src', by simp only [space, exec_bind, h1, exec_pure], h2, h4⟩
  | F + 1, c :: s, d, src, h, hF => by
    obtain ⟨d1, src1, h1, h2, h3, h4⟩ := getc_cons h
    simp only [List.length_cons] at hF
    rw [skipSpace_cons]
    cases hc : isSpace c with
    | true =>
      obtain ⟨d', src', h5, h6, h7⟩ := space_at F s h2 (by omega)
      refine ⟨d', src', ?_, h6, by rw [h7, h4]⟩
      simp only [space, exec_bind, h1, hc, if_true, h5]
    | false =>
      obtain ⟨d2, h5, h6, h7, h8⟩ := ungetc_at (c := c) h2 h3 h.suffix
      refine ⟨d2, src1, ?_, h6, by rw [h8, h4]⟩
      simp only [space, exec_bind, h1, hc, Bool.false_eq_true, if_false, h5]

/-! ## Names -/

theorem nameLoop_at (t : NameType) : ∀ (F : Nat) (s : Bytes) {d : Dec ε} {src : Bytes}, At e b st d src s → s.length < F →
    ∃ x d' src', exec e (nameLoop t F) d src = (x, d', src') ∧
      match Rbxlx.readName t s with
      | .ok (n, rest) => x = true ∧ At e b st d' src' rest ∧ d'.err = none ∧ d'.buf = d.buf ++ n
      | _ => x = false ∧ Bad e b d'
  | 0, s, d, src, _, hF => by omega
  | F + 1, [], d, src, h, _ => by
    obtain ⟨d', src', h1, h2⟩ := mustgetc_nil h
    exact ⟨false, d', src', by simp only [nameLoop, exec_bind, h1, exec_pure], rfl, h2⟩
  | F + 1, c :: s, d, src, h, hF => by
    obtain ⟨d1, src1, h1, h2, h3, h4⟩ := mustgetc_cons h
    simp only [List.length_cons] at hF
    cases hc : isNameByte t c with
    | true =>
      obtain ⟨d2, h5, h6, h7, h8⟩ := exec_write h2 [c]
      obtain ⟨x, d', src', h9, h10⟩ := nameLoop_at t F s h6 (by omega)
      refine ⟨x, d', src', by simp only [nameLoop, exec_bind, h1, hc, if_true, h5, h9], ?_⟩
      unfold Rbxlx.readName at h10 ⊢
      rw [List.dropWhile_cons, List.takeWhile_cons]
      simp only [hc, if_true]
      cases hd : s.dropWhile (isNameByte t) with
      | nil => rw [hd] at h10; exact h10
      | cons c' rest =>
        rw [hd] at h10
        obtain ⟨g1, g2, g3, g4⟩ := h10
        exact ⟨g1, g2, g3, by rw [g4, h8, h4]; simp⟩
    | false =>
      obtain ⟨d2, h5, h6, h7, h8⟩ := ungetc_at (c := c) h2 h3 h.suffix
      refine ⟨true, d2, src1, by simp only [nameLoop, exec_bind, h1, hc, Bool.false_eq_true, if_false, h5, exec_pure], ?_⟩
      unfold Rbxlx.readName
      rw [List.dropWhile_cons, List.takeWhile_cons]
      simp only [hc, Bool.false_eq_true, if_false]
      exact ⟨trivial, h6, h7, by rw [h8, h4]; simp⟩

theorem readName_at (t : NameType) (F : Nat) (s : Bytes) {d : Dec ε} {src : Bytes} (h : At e b st d src s) (hF : s.length < F) :
    ∃ x d' src', exec e (readName F t) d src = (x, d', src') ∧
      match Rbxlx.readName t s with
      | .ok (n, rest) => x = decide (n ≠ []) ∧ At e b st d' src' rest ∧ d'.err = none ∧ d'.buf = d.buf ++ n
      | _ => x = false ∧ Bad e b d' := by
  cases s with
  | nil =>
    obtain ⟨d', src', h1, h2⟩ := mustgetc_nil h
    exact ⟨false, d', src', by simp only [readName, exec_bind, h1, exec_pure], rfl, h2⟩
  | cons c s =>
    obtain ⟨d1, src1, h1, h2, h3, h4⟩ := mustgetc_cons h
    simp only [List.length_cons] at hF
    cases hc : isNameByte t c with
    | true =>
      obtain ⟨d2, h5, h6, h7, h8⟩ := exec_write h2 [c]
      obtain ⟨x, d', src', h9, h10⟩ := nameLoop_at t F s h6 (by omega)
      refine ⟨x, d', src', by simp only [readName, exec_bind, h1, hc, if_true, h5, h9], ?_⟩
      unfold Rbxlx.readName at h10 ⊢
      rw [List.dropWhile_cons, List.takeWhile_cons]
      simp only [hc, if_true]
      cases hd : s.dropWhile (isNameByte t) with
      | nil => rw [hd] at h10; exact h10
      | cons c' rest =>
        rw [hd] at h10
        obtain ⟨g1, g2, g3, g4⟩ := h10
        exact ⟨by simp [g1], g2, g3, by rw [g4, h8, h4]; simp⟩
    | false =>
      obtain ⟨d2, h5, h6, h7, h8⟩ := ungetc_at (c := c) h2 h3 h.suffix
      refine ⟨false, d2, src1, by simp only [readName, exec_bind, h1, hc, Bool.false_eq_true, if_false, h5, exec_pure], ?_⟩
      unfold Rbxlx.readName
      rw [List.dropWhile_cons, List.takeWhile_cons]
      simp only [hc, Bool.false_eq_true, if_false]
      exact ⟨by simp, h6, h7, by rw [h8, h4]; simp⟩

/-- `name`: the name, if there is one; otherwise nothing has been read, or the end has been met. -/
theorem name_at (t : NameType) (F : Nat) (s : Bytes) {d : Dec ε} {src : Bytes} (h : At e b st d src s) (hF : s.length < F) :
    ∃ x d' src', exec e (name F t) d src = (x, d', src') ∧
      match Rbxlx.readName t s with
      | .ok (n, rest) => x = (if n = [] then none else some n) ∧ At e b st d' src' rest ∧ d'.err = none
      | _ => x = none ∧ Bad e b d' := by
  have h0 : exec e reset d src = ((), { d with buf := [] }, src) := exec_modify _ _ _
  obtain ⟨x, d', src', h1, h2⟩ := readName_at t F s (At.buf h []) hF
  simp only [name, exec_bind, h0, h1]
  cases hr : Rbxlx.readName t s with
  | ok p =>
    obtain ⟨n, rest⟩ := p
    rw [hr] at h2
    obtain ⟨rfl, g2, g3, g4⟩ := h2
    simp only [List.nil_append] at g4
    by_cases hn : n = []
    · subst hn
      exact ⟨none, d', src', by simp [exec_pure], rfl, g2, g3⟩
    · refine ⟨some n, d', src', ?_, (if_neg hn).symm, g2, g3⟩
      simp only [decide_eq_true hn, if_true, exec_bind, exec_get, exec_pure, g4]
  | err x =>
    rw [hr] at h2
    obtain ⟨rfl, g2⟩ := h2
    exact ⟨none, d', src', by simp [exec_pure], rfl, g2⟩
  | panic =>
    rw [hr] at h2
    obtain ⟨rfl, g2⟩ := h2
    exact ⟨none, d', src', by simp [exec_pure], rfl, g2⟩

/-! ## Text -/

theorem digitLoop_at (hex : Bool) : ∀ (F : Nat) (c : Byte) (s : Bytes) {d : Dec ε} {src : Bytes}, At e b st d src s → d.err = none →
    (c :: s) <:+ b → s.length < F →
    ∃ x d' src', exec e (digitLoop hex F c) d src = (x, d', src') ∧
      match (c :: s).dropWhile (isEntityDigit hex) with
      | c' :: rest => x = some c' ∧ At e b st d' src' rest ∧ d'.err = none ∧ (c' :: rest) <:+ b ∧
          d'.buf = d.buf ++ (c :: s).takeWhile (isEntityDigit hex)
      | [] => x = none ∧ Bad e b d'
  | 0, c, s, d, src, _, _, _, hF => by omega
  | F + 1, c, s, d, src, h, hn, hs, hF => by
    rw [List.dropWhile_cons, List.takeWhile_cons]
    cases hc : isEntityDigit hex c with
    | false =>
      refine ⟨some c, d, src, ?_, ?_⟩
      · simp only [digitLoop, hc, Bool.false_eq_true, if_false, exec_pure]
      · simp only [Bool.false_eq_true, if_false]
        exact ⟨trivial, h, hn, hs, by simp⟩
    | true =>
      obtain ⟨d1, h1, h2, h3, h4⟩ := exec_write h [c]
      simp only [if_true]
      cases s with
      | nil =>
        obtain ⟨d2, src2, h5, h6⟩ := mustgetc_nil h2
        refine ⟨none, d2, src2, ?_, ?_⟩
        · simp only [digitLoop, hc, if_true, exec_bind, h1, h5, exec_pure]
        · exact ⟨rfl, h6⟩
      | cons c2 s =>
        obtain ⟨d2, src2, h5, h6, h7, h8⟩ := mustgetc_cons h2
        simp only [List.length_cons] at hF
        obtain ⟨x, d', src', h9, h10⟩ := digitLoop_at hex F c2 s h6 h7 ((List.suffix_cons _ _).trans hs) (by omega)
        refine ⟨x, d', src', by simp only [digitLoop, hc, if_true, exec_bind, h1, h5, h9], ?_⟩
        generalize hd : (c2 :: s).dropWhile (isEntityDigit hex) = y at h10 ⊢
        cases y with
        | nil => exact h10
        | cons c' rest =>
          obtain ⟨g1, g2, g3, g4, g5⟩ := h10
          exact ⟨g1, g2, g3, g4, by rw [g5, h8, h4]; simp⟩

/-- The result of a part of `text` that reads an entity: what is appended to the text that was `out`. -/
def EntityOutcome (e : Stop ε) (b : Bytes) (st : List Int) (out : Bytes) (x : Bool × Dec ε × Bytes) (r : Res (Bytes × Bytes)) : Prop :=
  match r with
  | .ok (y, s) => x.1 = true ∧ At e b st x.2.1 x.2.2 s ∧ x.2.1.buf = out ++ y
  | _ => x.1 = false ∧ Bad e b x.2.1

theorem digits_at (hex : Bool) (F : Nat) (out lead : Bytes) (s : Bytes) {d : Dec ε} {src : Bytes} (h : At e b st d src s) 
    (hb : d.buf = out ++ lead) (hF : s.length ≤ F) :
    match s with
    | [] => ∃ d' src', exec e mustgetc d src = (none, d', src') ∧ Bad e b d'
    | c :: s => ∃ d1 src1, exec e mustgetc d src = (some c, d1, src1) ∧
      EntityOutcome e b st out (exec e (digits F hex out.length c) d1 src1) (numericEntity hex lead (c :: s)) := by
  cases s with
  | nil => exact mustgetc_nil h
  | cons c s =>
    obtain ⟨d1, src1, h1, h2, h3, h4⟩ := mustgetc_cons h
    simp only [List.length_cons] at hF
    refine ⟨d1, src1, h1, ?_⟩
    obtain ⟨x, d2, src2, h5, h6⟩ := digitLoop_at hex F c s h2 h3 h.suffix (by omega)
    have hb1 : d1.buf = out ++ lead := h4.trans hb
    simp only [digits, exec_bind, exec_get, h5]
    unfold numericEntity
    simp only
    generalize (c :: s).takeWhile (isEntityDigit hex) = ds at h6 ⊢
    cases hd : (c :: s).dropWhile (isEntityDigit hex) with
    | nil =>
      rw [hd] at h6
      obtain ⟨rfl, g⟩ := h6
      exact ⟨rfl, g⟩
    | cons c' rest =>
      rw [hd] at h6
      obtain ⟨rfl, g2, g3, g4, g5⟩ := h6
      rw [hb1] at g5
      simp only
      by_cases hc : c' = 59#8
      · subst hc
        simp only [ne_eq, not_true_eq_false, if_false, if_true, exec_bind, exec_get]
        have hdrop : d2.buf.drop d1.buf.length = ds := by rw [g5, hb1, List.drop_left]
        rw [hdrop]
        obtain ⟨d3, k1, k2, k3, k4⟩ := exec_write g2 [59#8]
        rw [k1]
        cases hm : entityNumber hex ds with
        | none => exact ⟨rfl, k2, by show d3.buf = _; rw [k4, g5]; simp⟩
        | some y =>
          have ht : exec e (truncate out.length) d3 src2 = ((), { d3 with buf := d3.buf.take out.length }, src2) := exec_modify _ _ _
          obtain ⟨d4, m1, m2, m3, m4⟩ := exec_write (At.buf k2 (d3.buf.take out.length)) [y]
          simp only [exec_bind, ht, m1, exec_pure]
          refine ⟨rfl, m2, ?_⟩
          show d4.buf = _
          rw [m4]
          simp only [k4, g5, List.append_assoc, List.take_left]
      · simp only [ne_eq, hc, not_false_eq_true, if_true, if_false]
        obtain ⟨d3, k1, k2, k3, k4⟩ := ungetc_at (c := c') g2 g3 g4
        simp only [exec_bind, k1, exec_pure]
        exact ⟨rfl, k2, by show d3.buf = _; rw [k4, g5]; simp⟩

theorem entity_at (F : Nat) (s : Bytes) {d : Dec ε} {src : Bytes} (h : At e b st d src s) (hF : s.length < F) :
    EntityOutcome e b st d.buf (exec e (entity F) d src) (readEntity s) := by
  obtain ⟨d1, h1, h2, h3, h4⟩ := exec_write h [38#8]
  cases s with
  | nil =>
    obtain ⟨d2, src2, h5, h6⟩ := mustgetc_nil h2
    simp only [entity, exec_bind, exec_get, h1, h5, exec_pure]
    exact ⟨rfl, h6⟩
  | cons c s =>
    obtain ⟨d2, src2, h5, h6, h7, h8⟩ := mustgetc_cons h2
    simp only [List.length_cons] at hF
    simp only [entity, exec_bind, exec_get, h1, h5]
    by_cases hc : c = 35#8
    · subst hc
      obtain ⟨d3, k1, k2, k3, k4⟩ := exec_write h6 [35#8]
      have hb3 : d3.buf = d.buf ++ [38#8, 35#8] := by rw [k4, h8, h4]; simp
      simp only [if_true, exec_bind, k1]
      by_cases hx : ∃ s1, s = 120#8 :: s1
      · obtain ⟨s1, rfl⟩ := hx
        obtain ⟨d4, src4, m1, m2, m3, m4⟩ := mustgetc_cons k2
        obtain ⟨d5, n1, n2, n3, n4⟩ := exec_write m2 [120#8]
        have hb5 : d5.buf = d.buf ++ [38#8, 35#8, 120#8] := by rw [n4, m4, hb3]; simp
        simp only [m1, if_true, exec_bind, n1]
        simp only [List.length_cons] at hF
        have := digits_at true F d.buf [38#8, 35#8, 120#8] s1 n2 hb5 (by omega)
        cases s1 with
        | nil =>
          obtain ⟨d6, src6, q1, q2⟩ := this
          rw [q1]
          exact ⟨rfl, q2⟩
        | cons c1 s1 =>
          obtain ⟨d6, src6, q1, q2⟩ := this
          rw [q1]
          exact q2
      · have := digits_at false F d.buf [38#8, 35#8] s k2 hb3 (by omega)
        cases s with
        | nil =>
          obtain ⟨d6, src6, q1, q2⟩ := this
          rw [q1]
          exact ⟨rfl, q2⟩
        | cons c1 s1 =>
          obtain ⟨d6, src6, q1, q2⟩ := this
          rw [q1]
          have hne : c1 ≠ 120#8 := by rintro rfl; exact hx ⟨s1, rfl⟩
          simp only [if_neg hne]
          have hre : readEntity (35#8 :: c1 :: s1) = numericEntity false [38#8, 35#8] (c1 :: s1) := by
            unfold readEntity
            split
            · rename_i heq; cases heq
            · rename_i heq; simp only [List.cons.injEq] at heq; exact absurd heq.2.1 hne
            · rename_i heq; simp only [List.cons.injEq, true_and] at heq; rw [heq]
            · rename_i h3; exact absurd rfl (h3 _)
          rw [hre]
          exact q2
    · simp only [if_neg hc]
      obtain ⟨d3, k1, k2, k3, k4⟩ := ungetc_at (c := c) h6 h7 h2.suffix
      have hb3 : d3.buf = d.buf ++ [38#8] := by rw [k4, h8, h4]
      simp only [exec_bind, k1]
      have hre : readEntity (c :: s) = (do
          let (name, rest) ← Rbxlx.readName .entity (c :: s)
          match rest with
          | 59#8 :: rest =>
            match entityNamed name with
            | some c => .ok ([c], rest)
            | none => .ok (38#8 :: name ++ [59#8], rest)
          | rest => .ok (38#8 :: name, rest)) := by
        unfold readEntity
        split
        · rename_i heq; cases heq
        · rename_i heq; simp only [List.cons.injEq] at heq; exact absurd heq.1 hc
        · rename_i heq; simp only [List.cons.injEq] at heq; exact absurd heq.1 hc
        · rfl
      rw [hre]
      obtain ⟨x, d4, src4, m1, m2⟩ := readName_at .entity F (c :: s) k2 (by simp only [List.length_cons]; omega)
      have hfl : ∀ (d : Dec ε) src, exec e failed d src = (d.err.isSome, d, src) := fun d src => rfl
      simp only [m1, hfl]
      cases hr : Rbxlx.readName .entity (c :: s) with
      | panic =>
        rw [hr] at m2
        obtain ⟨rfl, g⟩ := m2
        obtain ⟨y, hy, -⟩ := g.err
        simp only [hy, Option.isSome_some, Bool.not_false, Bool.and_true, if_true, exec_pure]
        exact ⟨rfl, g⟩
      | err z =>
        rw [hr] at m2
        obtain ⟨rfl, g⟩ := m2
        obtain ⟨y, hy, -⟩ := g.err
        simp only [hy, Option.isSome_some, Bool.not_false, Bool.and_true, if_true, exec_pure]
        exact ⟨rfl, g⟩
      | ok p =>
        obtain ⟨n, rest⟩ := p
        rw [hr] at m2
        obtain ⟨-, g2, g3, g4⟩ := m2
        rw [hb3] at g4
        simp only [g3, Option.isSome_none, Bool.and_false, Bool.false_eq_true, if_false, exec_bind, Res.ok_bind]
        cases rest with
        | nil =>
          exfalso
          unfold Rbxlx.readName at hr
          split at hr
          · cases hr
          · cases hr
        | cons c1 rest =>
          obtain ⟨d5, src5, q1, q2, q3, q4⟩ := mustgetc_cons g2
          rw [q1]
          simp only
          by_cases h59 : c1 = 59#8
          · subst h59
            simp only [ne_eq, not_true_eq_false, if_false, exec_bind, exec_get]
            have hdrop : d5.buf.drop (d.buf.length + 1) = n := by
              rw [q4, g4]
              have : d.buf.length + 1 = (d.buf ++ [38#8]).length := by simp
              rw [this, List.drop_left]
            rw [hdrop]
            obtain ⟨d6, r1, r2, r3, r4⟩ := exec_write q2 [59#8]
            rw [r1]
            cases hm : entityNamed n with
            | none => exact ⟨rfl, r2, by show d6.buf = _; rw [r4, q4, g4]; simp⟩
            | some y =>
              have ht : exec e (truncate d.buf.length) d6 src5 = ((), { d6 with buf := d6.buf.take d.buf.length }, src5) := exec_modify _ _ _
              obtain ⟨d7, w1, w2, w3, w4⟩ := exec_write (At.buf r2 (d6.buf.take d.buf.length)) [y]
              simp only [exec_bind, ht, w1, exec_pure]
              refine ⟨rfl, w2, ?_⟩
              show d7.buf = _
              rw [w4]
              simp only [r4, q4, g4, List.append_assoc, List.take_left]
          · simp only [ne_eq, h59, not_false_eq_true, if_true]
            obtain ⟨d6, r1, r2, r3, r4⟩ := ungetc_at (c := c1) q2 q3 g2.suffix
            simp only [exec_bind, r1, exec_pure]
            split
            · rename_i heq; simp only [List.cons.injEq] at heq; exact absurd heq.1 h59
            · exact ⟨rfl, r2, by show d6.buf = _; rw [r4, q4, g4]; simp⟩

/-- The result of `text`: that of the function on byte strings; or the end of the data has been met, which is not an error
except in a CDATA section. -/
def TextOutcome (e : Stop ε) (b : Bytes) (st : List Int) (mode : TextMode) (x : Option Bytes × Dec ε × Bytes) (r : Res (Bytes × Bytes)) : Prop :=
  Outcome e b st x r ∨ ((∃ y, r = .err y) ∧ mode ≠ .cdata ∧ ∃ t, x.1 = some t ∧ At e b st x.2.1 x.2.2 [])

theorem textLoop_at (mode : TextMode) : ∀ (f F : Nat) (b0 b1 : Byte) (s : Bytes) {d : Dec ε} {src : Bytes}, At e b st d src s →
    s.length < f → s.length + 1 < F →
    TextOutcome e b st mode (exec e (textLoop mode F b0 b1) d src) (Rbxlx.textLoop mode f b0 b1 d.buf s) := by
  intro f
  induction f with
  | zero => intro F b0 b1 s d src _ hf; omega
  | succ f ih =>
    intro F b0 b1 s d src h hf hF
    obtain ⟨F, rfl⟩ : ∃ k, F = k + 1 := ⟨F - 1, by omega⟩
    have hfin : ∀ (n : Nat) (d : Dec ε) (src : Bytes), exec e (finish n) d src = (some (d.buf.take (d.buf.length - n)), d, src) := fun n d src => rfl
    cases s with
    | nil =>
      obtain ⟨d1, src1, h1, h2, h3, h4⟩ := getc_nil h
      rw [textLoop, exec_bind, h1, Rbxlx.textLoop]
      by_cases hm : mode = .cdata
      · simp only [if_pos hm, exec_bind]
        obtain ⟨d2, k1, k2, -⟩ := exec_ifEOF (src := src1) "unexpected EOF in CDATA section" (h2.bad h3)
        rw [k1]
        exact .inl ⟨rfl, k2⟩
      · simp only [if_neg hm, hfin]
        exact .inr ⟨⟨_, rfl⟩, hm, _, rfl, h2⟩
    | cons c s =>
      simp only [List.length_cons] at hf hF
      obtain ⟨d1, src1, h1, h2, h3, h4⟩ := getc_cons h
      rw [textLoop, exec_bind, h1, Rbxlx.textLoop]
      simp only
      split
      · rw [hfin, h4]; exact .inl ⟨rfl, h2⟩
      split
      · obtain ⟨d2, k1, k2⟩ := exec_syntaxError "unexpected ']]>'" h2
        simp only [exec_bind, k1, exec_pure]
        exact .inl ⟨rfl, k2⟩
      split
      · obtain ⟨d2, k1, k2, k3, k4⟩ := ungetc_at (c := c) h2 h3 h.suffix
        simp only [exec_bind, k1, hfin]
        exact .inl ⟨by simp [k4, h4], k2⟩
      split
      · rw [hfin]; exact .inl ⟨by simp [h4], h2⟩
      split
      · have hen := entity_at F s h2 (by omega)
        rw [h4] at hen
        rcases hx : exec e (entity F) d1 src1 with ⟨x, d2, src2⟩
        rw [hx] at hen
        rw [exec_bind, hx]
        have hg := readEntity_good s
        cases hr : readEntity s with
        | panic => exact absurd hr hg.1
        | err y =>
          rw [hr] at hen
          obtain ⟨k1, k2⟩ := hen
          simp only at k1
          subst k1
          exact .inl ⟨rfl, k2⟩
        | ok p =>
          obtain ⟨y, rest⟩ := p
          rw [hr] at hen
          obtain ⟨k1, k2, k3⟩ := hen
          simp only at k1 k2 k3
          subst k1
          have hlen := hg.2.2 _ hr
          simp only at hlen
          simp only [if_true]
          have := ih F 0#8 0#8 rest k2 (by omega) (by omega)
          rw [k3] at this
          exact this
      split
      · obtain ⟨d2, k1, k2, k3, k4⟩ := exec_write h2 [10#8]
        rw [exec_bind, k1]
        have := ih F b1 c s k2 (by omega) (by omega)
        rw [k4, h4] at this
        exact this
      split
      · have := ih F b1 c s h2 (by omega) (by omega)
        rw [h4] at this
        exact this
      · obtain ⟨d2, k1, k2, k3, k4⟩ := exec_write h2 [c]
        rw [exec_bind, k1]
        have := ih F b1 c s k2 (by omega) (by omega)
        rw [k4, h4] at this
        exact this

theorem text_at (mode : TextMode) (F : Nat) (s : Bytes) {d : Dec ε} {src : Bytes} (h : At e b st d src s) (hF : s.length + 1 < F) :
    TextOutcome e b st mode (exec e (text F mode) d src) (readText mode s) := by
  have h0 : exec e reset d src = ((), { d with buf := [] }, src) := exec_modify _ _ _
  unfold text readText
  rw [exec_bind, h0]
  exact textLoop_at mode (s.length + 1) F 0#8 0#8 s (At.buf h []) (Nat.lt_succ_self _) hF

end
end Dec
end Rbxlx

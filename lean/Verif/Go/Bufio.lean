import Verif.Go.Reader
import Verif.Spec.ByteReader
/-!
# `bufio.Reader` of the Go library, and programs that read bytes
-/
namespace Go
open Spec

/-! ## bufio.Reader -/

/-- `bufio.Reader`: the reader, the bytes that are buffered and not yet read, and the error that is kept. -/
structure BufReader (σ ε : Type) where
  rd : σ
  buf : Bytes := []
  err : Option (Stop ε) := none

section
variable {σ ε : Type} (R : Reader σ ε) (noProgress : ε)

/-- `Reader.fill`, of an empty buffer; the first argument is the number of attempts (`maxConsecutiveEmptyReads`). -/
def bufFill : Nat → σ → BufReader σ ε
  | 0, s => ⟨s, [], some (.fail noProgress)⟩
  | i + 1, s =>
    match R.read s 4096 with
    | (s', d, some x) => ⟨s', d, some x⟩
    | (s', [], none) => bufFill i s'
    | (s', d, none) => ⟨s', d, none⟩

/-- `Reader.ReadByte`. The loop is passed at most twice, as `fill` leaves data or an error. -/
def bufReadByte (b : BufReader σ ε) : BufReader σ ε × Sum Byte (Stop ε) :=
  match b.buf with
  | c :: rest => ({ b with buf := rest }, .inl c)
  | [] =>
    match b.err with
    | some x => ({ b with err := none }, .inr x)
    | none =>
      match bufFill R noProgress 100 b.rd with
      | ⟨s, c :: rest, x⟩ => (⟨s, rest, x⟩, .inl c)
      | ⟨s, [], some x⟩ => (⟨s, [], none⟩, .inr x)
      | ⟨s, [], none⟩ => (⟨s, [], none⟩, .inr (.fail noProgress))

/-- `bufio.NewReader(r)` as a byte reader. -/
def buffered : ByteReader (BufReader σ ε) ε := ⟨bufReadByte R noProgress⟩

variable {R noProgress} {e : Stop ε}

theorem bufFill_yields : ∀ (i : Nat) (s : σ) (out : Bytes), Yields R e s out → ¬ Stalls R 4096 i s →
    (∃ s' d, d ≠ [] ∧ bufFill R noProgress i s = ⟨s', d, none⟩ ∧ d <+: out ∧ Yields R e s' (out.drop d.length)) ∨
    (∃ s', bufFill R noProgress i s = ⟨s', out, some e⟩ ∧ Dead R e s') := by
  intro i
  induction i with
  | zero => intro s out _ h; exact absurd trivial h
  | succ i ih =>
    intro s out hy hs
    obtain ⟨h1, h2, h3⟩ := hy
    have h1 := h1 4096 (by omega)
    have h2 := h2 4096 (by omega)
    have h3 := h3 4096 (by omega)
    rw [bufFill]
    rcases hr : R.read s 4096 with ⟨s', d, x⟩
    rw [hr] at h1 h2 h3
    simp only at h1 h2 h3
    cases x with
    | some x =>
      obtain ⟨rfl, rfl, hd⟩ := h3 x rfl
      exact .inr ⟨s', rfl, hd⟩
    | none =>
      cases d with
      | nil =>
        simp only
        have h2 := h2 rfl
        simp only [List.length_nil, List.drop_zero] at h2
        exact ih s' out h2 (fun hx => hs ⟨s', hr, hx⟩)
      | cons c d => exact .inl ⟨s', c :: d, nofun, rfl, h1 rfl, h2 rfl⟩

theorem buffered_dead {s : σ} (h : Dead R e s) : Feeds (buffered R noProgress) e ⟨s, [], none⟩ [] := by
  obtain ⟨P, hs, hP⟩ := h
  refine .done ⟨fun t => t.buf = [] ∧ t.err = none ∧ P t.rd, ⟨rfl, rfl, hs⟩, ?_⟩
  rintro ⟨s, buf, err⟩ ⟨h1, h2, h3⟩
  simp only at h1 h2 h3
  subst h1 h2
  obtain ⟨s', h4, h5⟩ := hP s h3 4096 (by omega)
  refine ⟨⟨s', [], none⟩, ?_, rfl, rfl, h5⟩
  simp [buffered, bufReadByte, bufFill, h4]

theorem buffered_rest {s : σ} (h : Dead R e s) : ∀ d : Bytes, Feeds (buffered R noProgress) e ⟨s, d, some e⟩ d
  | [] => by
    obtain ⟨P, hs, hP⟩ := h
    refine .done ⟨fun t => t.buf = [] ∧ (t.err = none ∨ t.err = some e) ∧ P t.rd, ⟨rfl, .inr rfl, hs⟩, ?_⟩
    rintro ⟨s, buf, err⟩ ⟨h1, h2, h3⟩
    simp only at h1 h2 h3
    subst h1
    rcases h2 with rfl | rfl
    · obtain ⟨s', h4, h5⟩ := hP s h3 4096 (by omega)
      refine ⟨⟨s', [], none⟩, ?_, rfl, .inl rfl, h5⟩
      simp [buffered, bufReadByte, bufFill, h4]
    · exact ⟨⟨s, [], none⟩, rfl, rfl, .inl rfl, h3⟩
  | c :: d => .byte (t' := ⟨s, d, some e⟩) rfl (buffered_rest h d)

/-- A `bufio.Reader` delivers what its reader delivers, unless that returns nothing a hundred times in a row. -/
theorem buffered_feeds (hl : ∀ s, ¬ Stalls R 4096 100 s) : ∀ (m : Nat) (s : σ) (buf out : Bytes), Yields R e s out → out.length ≤ m →
    Feeds (buffered R noProgress) e ⟨s, buf, none⟩ (buf ++ out) := by
  intro m
  induction m with
  | zero =>
    intro s buf
    induction buf with
    | cons c buf ih => intro out hy hm; exact .byte (t' := ⟨s, buf, none⟩) rfl (ih out hy hm)
    | nil =>
      intro out hy hm
      have : out = [] := List.eq_nil_of_length_eq_zero (by omega)
      subst this
      rcases bufFill_yields (noProgress := noProgress) 100 s [] hy (hl s) with ⟨s', d, h1, -, h3, -⟩ | ⟨s', h1, h2⟩
      · exact absurd (List.prefix_nil.1 h3) h1
      · refine .done ⟨fun t => t = ⟨s, [], none⟩ ∨ (t.buf = [] ∧ t.err = none ∧ Dead R e t.rd), .inl rfl, ?_⟩
        rintro t (rfl | ⟨h3, h4, h5⟩)
        · refine ⟨⟨s', [], none⟩, ?_, .inr ⟨rfl, rfl, h2⟩⟩
          simp [buffered, bufReadByte, h1]
        · obtain ⟨s, buf, err⟩ := t
          simp only at h3 h4 h5
          subst h3 h4
          obtain ⟨P, hs, hP⟩ := h5
          obtain ⟨s'', h6, h7⟩ := hP s hs 4096 (by omega)
          refine ⟨⟨s'', [], none⟩, ?_, .inr ⟨rfl, rfl, P, h7, hP⟩⟩
          simp [buffered, bufReadByte, bufFill, h6]
  | succ m ihm =>
    intro s buf
    induction buf with
    | cons c buf ih => intro out hy hm; exact .byte (t' := ⟨s, buf, none⟩) rfl (ih out hy hm)
    | nil =>
      intro out hy hm
      rcases bufFill_yields (noProgress := noProgress) 100 s out hy (hl s) with ⟨s', d, h1, h2, ⟨r, rfl⟩, h4⟩ | ⟨s', h1, h2⟩
      · obtain ⟨c, d, rfl⟩ := List.exists_cons_of_ne_nil h1
        rw [List.drop_left] at h4
        simp only [List.cons_append, List.length_cons, List.length_append] at hm
        refine .byte (t' := ⟨s', d, none⟩) ?_ (ihm s' d r h4 (by omega))
        simp [buffered, bufReadByte, h2]
      · cases out with
        | nil => exact ihm s [] [] hy (Nat.zero_le _)
        | cons c out =>
          refine .byte (t' := ⟨s', out, some e⟩) ?_ (buffered_rest h2 out)
          simp [buffered, bufReadByte, h1]
end

/-! ## Programs -/

/-- A program that reads bytes. -/
inductive Prog (ε α : Type) where
  | ret (a : α)
  | read (k : Sum Byte (Stop ε) → Prog ε α)

namespace Prog
variable {τ ε α β : Type}

/-- One program after the other. -/
def bind : Prog ε α → (α → Prog ε β) → Prog ε β
  | .ret a, f => f a
  | .read k, f => .read fun x => bind (k x) f

/-- The program with a byte reader. -/
def run (B : ByteReader τ ε) : Prog ε α → τ → α × τ
  | .ret a, t => (a, t)
  | .read k, t => run B (k (B.readByte t).2) (B.readByte t).1

/-- The program with the given bytes, which are followed by the error `e`. -/
def runOn (e : Stop ε) : Prog ε α → Bytes → α × Bytes
  | .ret a, b => (a, b)
  | .read k, [] => runOn e (k (.inr e)) []
  | .read k, c :: b => runOn e (k (.inl c)) b

theorem runOn_bind (e : Stop ε) (f : α → Prog ε β) : ∀ (p : Prog ε α) (b : Bytes), runOn e (p.bind f) b = runOn e (f (runOn e p b).1) (runOn e p b).2
  | .ret a, b => rfl
  | .read k, [] => runOn_bind e f (k (.inr e)) []
  | .read k, c :: b => runOn_bind e f (k (.inl c)) b

/-- What a program does depends only on the bytes that the reader delivers. -/
theorem run_feeds {B : ByteReader τ ε} {e : Stop ε} : ∀ (p : Prog ε α) (t : τ) (b : Bytes), Feeds B e t b →
    ∃ t', run B p t = ((runOn e p b).1, t') ∧ Feeds B e t' (runOn e p b).2
  | .ret a, t, b, h => ⟨t, rfl, h⟩
  | .read k, t, _, .done ⟨P, h1, h2⟩ => by
    obtain ⟨t', h3, h4⟩ := h2 t h1
    obtain ⟨t'', h5, h6⟩ := run_feeds (k (.inr e)) t' [] (.done ⟨P, h4, h2⟩)
    refine ⟨t'', ?_, h6⟩
    rw [run, h3]
    exact h5
  | .read k, t, _, .byte (t' := t') (c := c) (b := b) h1 h2 => by
    obtain ⟨t'', h5, h6⟩ := run_feeds (k (.inl c)) t' b h2
    refine ⟨t'', ?_, h6⟩
    rw [run, h1]
    exact h5

/-- A program reads no more than it is given. -/
theorem runOn_suffix (e : Stop ε) : ∀ (p : Prog ε α) (b : Bytes), (runOn e p b).2 <:+ b
  | .ret a, b => List.suffix_refl _
  | .read k, [] => runOn_suffix e (k (.inr e)) []
  | .read k, c :: b => (runOn_suffix e (k (.inl c)) b).trans (List.suffix_cons c b)

/-- A program that has left some bytes unread does the same if there is something else in their place. -/
theorem runOn_local (e : Stop ε) : ∀ (p : Prog ε α) (c r : Bytes), (runOn e p (c ++ r)).2 = r → r ≠ [] → ∀ (e' : Stop ε) (r' : Bytes),
    runOn e' p (c ++ r') = ((runOn e p (c ++ r)).1, r')
  | .ret a, c, r, h, _, e', r' => by
    have h1 : c ++ r = r := h
    have : c = [] := by simpa using h1
    subst this
    rfl
  | .read k, [], [], _, hr, _, _ => absurd rfl hr
  | .read k, [], x :: r, h, _, _, _ => by
    have h1 : (runOn e (k (.inl x)) r).2 = x :: r := h
    have h2 := (runOn_suffix e (k (.inl x)) r).length_le
    rw [h1] at h2
    simp only [List.length_cons] at h2
    omega
  | .read k, y :: c, r, h, hr, e', r' => runOn_local e (k (.inl y)) c r h hr e' r'

end Prog
end Go

import Mathlib.Data.List.Forall2
import Verif.Errors.Model
/-!
# C37: error aggregation
-/
namespace Props
open Go Errors

/-- The elements that are not nil. -/
def nonNil (l : List (Option E)) : List (Option E) := l.filter Option.isSome

/-- What an argument of `Union` contributes: nothing if it is nil, its non-nil elements if it is an
`Errors`, itself otherwise. -/
def contributes : Option E → List (Option E)
  | none => []
  | some (.errs l) => nonNil l
  | some (.leaf m) => [some (.leaf m)]

theorem foldl_filter (l acc : List (Option E)) :
    l.foldl (fun e err => if err.isSome then e ++ [err] else e) acc = acc ++ nonNil l := by
  induction l generalizing acc with
  | nil => simp [nonNil]
  | cons x l ih =>
    rw [List.foldl_cons, ih]
    cases x <;> simp [nonNil]

theorem unionStep_eq (acc : List (Option E)) (x : Option E) :
    unionStep acc x = acc ++ contributes x := by
  match x with
  | none => simp [unionStep, contributes]
  | some (.errs l) => exact foldl_filter l acc
  | some (.leaf m) => rfl

theorem union_eq (args : List (Option E)) : union args = ret (args.flatMap contributes) := by
  have : ∀ (args acc : List (Option E)), args.foldl unionStep acc = acc ++ args.flatMap contributes := by
    intro args
    induction args with
    | nil => intro acc; simp
    | cons x l ih => intro acc; rw [List.foldl_cons, unionStep_eq, ih]; simp
  simp [union, this]

/-- C37: Append keeps the list and adds the non-nil arguments, in order, each once. -/
theorem C37_append (errs args : List (Option E)) : append errs args = errs ++ nonNil args := by
  exact foldl_filter args errs

/-- C37: Append is independent of how the arguments are grouped into calls. -/
theorem C37_append_append (errs a b : List (Option E)) :
    append (append errs a) b = append errs (a ++ b) := by
  simp [C37_append, nonNil]

/-- C37: Return is nil exactly for an empty list; otherwise it is the list itself. -/
theorem C37_return (errs : List (Option E)) :
    (ret errs = none ↔ errs = []) ∧ (errs ≠ [] → ret errs = some (.errs errs)) := by
  unfold ret
  cases errs <;> simp

/-- C37: Union is nil exactly when no argument contributes an error, and is otherwise the list of the
contributed errors in order, each once, none of them nil. -/
theorem C37_union (args : List (Option E)) :
    (union args = none ↔ ∀ a ∈ args, contributes a = []) ∧
    (∀ e, union args = some e → e = .errs (args.flatMap contributes)) ∧
    (∀ e ∈ args.flatMap contributes, e ≠ none) := by
  rw [union_eq]
  refine ⟨?_, ?_, ?_⟩
  · rw [(C37_return _).1, List.flatMap_eq_nil_iff]
  · intro e h
    unfold ret at h
    split at h
    · cases h
    · exact (Option.some.inj h).symm
  · intro e he
    obtain ⟨a, _, h⟩ := List.mem_flatMap.1 he
    match a with
    | none => cases h
    | some (.leaf m) =>
      simp only [contributes, List.mem_singleton] at h
      subst h; exact Option.some_ne_none _
    | some (.errs l) =>
      simp only [contributes, nonNil, List.mem_filter] at h
      rintro rfl
      simp at h

/-- C37: taking unions in several steps loses, repeats and reorders nothing. -/
theorem C37_union_union (a b : List (Option E)) : union [union a, union b] = union (a ++ b) := by
  have h : ∀ l : List (Option E), contributes (union l) = l.flatMap contributes := by
    intro l
    have hn := (C37_union l).2.2
    rw [union_eq]
    unfold ret
    split
    · rename_i h0; rw [List.length_eq_zero_iff.1 h0]; rfl
    · simp only [contributes, nonNil]
      rw [List.filter_eq_self]
      intro x hx
      have := hn x hx
      cases x with
      | none => exact absurd rfl this
      | some _ => rfl
  rw [union_eq [union a, union b], union_eq (a ++ b)]
  simp only [List.flatMap_cons, List.flatMap_nil, List.append_nil, h, List.flatMap_append]

/-- The lines of a text. -/
def lines : Bytes → List Bytes
  | [] => [[]]
  | c :: s =>
    match lines s with
    | [] => [[c]]
    | l :: ls => if c = 10#8 then [] :: l :: ls else (c :: l) :: ls

theorem lines_ne_nil (s : Bytes) : lines s ≠ [] := by
  cases s with
  | nil => simp [lines]
  | cons c s =>
    simp only [lines]
    split
    · simp
    · split <;> simp

theorem lines_cons_nl (s : Bytes) : lines (10#8 :: s) = [] :: lines s := by
  have := lines_ne_nil s
  simp only [lines]
  split
  · simp_all
  · rename_i h; simp [h]

theorem lines_cons (c : Byte) (s : Bytes) (hc : c ≠ 10#8) :
    ∃ l ls, lines s = l :: ls ∧ lines (c :: s) = (c :: l) :: ls := by
  cases h : lines s with
  | nil => exact absurd h (lines_ne_nil s)
  | cons l ls => exact ⟨l, ls, rfl, by simp only [lines, h, if_neg hc]⟩

/-- A text followed by a line break and another text has the lines of both. -/
theorem lines_append_nl (a b : Bytes) : lines (a ++ 10#8 :: b) = lines a ++ lines b := by
  induction a with
  | nil => exact lines_cons_nl b
  | cons c a ih =>
    by_cases hc : c = 10#8
    · subst hc
      rw [List.cons_append, lines_cons_nl, lines_cons_nl, ih]; rfl
    · obtain ⟨l, ls, h1, h2⟩ := lines_cons c a hc
      obtain ⟨l', ls', h1', h2'⟩ := lines_cons c (a ++ 10#8 :: b) hc
      rw [List.cons_append, h2', h2]
      rw [ih, h1] at h1'
      simp only [List.cons_append, List.cons.injEq] at h1'
      rw [← h1'.1, ← h1'.2]; rfl

/-- Indenting a message puts a tab before every line. -/
theorem lines_tab_indent (m : Bytes) :
    lines (9#8 :: indent m) = (lines m).map (9#8 :: ·) := by
  induction m with
  | nil => rfl
  | cons c m ih =>
    obtain ⟨l, ls, h1, h2⟩ := lines_cons 9#8 (indent m) (by decide)
    rw [h2] at ih
    by_cases hc : c = 10#8
    · subst hc
      have : indent (10#8 :: m) = 10#8 :: 9#8 :: indent m := rfl
      rw [this]
      have e : (9#8 :: 10#8 :: 9#8 :: indent m : Bytes) = [9#8] ++ 10#8 :: (9#8 :: indent m) := rfl
      rw [e, lines_append_nl, h2, ih, lines_cons_nl]; rfl
    · have : indent (c :: m) = c :: indent m := by simp [indent, hc]
      rw [this]
      obtain ⟨l1, ls1, h3, h4⟩ := lines_cons c (indent m) hc
      obtain ⟨l2, ls2, h5, h6⟩ := lines_cons 9#8 (c :: indent m) (by decide)
      obtain ⟨l3, ls3, h7, h8⟩ := lines_cons c m hc
      rw [h6, h8]
      rw [h4] at h5
      rw [h1] at h3
      rw [h7] at ih
      simp only [List.map_cons, List.cons.injEq] at ih h3 h5 ⊢
      refine ⟨⟨trivial, ?_⟩, ?_⟩
      · rw [← h5.1, ← h3.1, ih.1.2]
      · rw [← h5.2, ← h3.2, ih.2]

/-- C37: the message of two or more errors is a heading line followed by every line of every
message, in order, each with a tab before it. -/
theorem C37_message (l : List (Option E)) (hl : 2 ≤ l.length) (msgs : List Bytes)
    (h : List.Forall₂ (fun e m => ∃ x, e = some x ∧ text x = .ok m) l msgs) :
    ∃ t, text (.errs l) = .ok t ∧
      lines t = str "multiple errors:" :: (msgs.flatMap lines).map (9#8 :: ·) := by
  have aux : ∀ (l : List (Option E)) (msgs : List Bytes),
      List.Forall₂ (fun e m => ∃ x, e = some x ∧ text x = .ok m) l msgs →
      ∃ t, texts l = .ok t ∧ ∀ pre, lines (pre ++ t) = lines pre ++ (msgs.flatMap lines).map (9#8 :: ·) := by
    intro l msgs h
    induction h with
    | nil => exact ⟨[], rfl, fun pre => by simp⟩
    | @cons e m l msgs hx _ ih =>
      obtain ⟨x, rfl, hx⟩ := hx
      obtain ⟨t, ht, hlines⟩ := ih
      refine ⟨str "\n\t" ++ indent m ++ t, ?_, fun pre => ?_⟩
      · simp [texts, hx, ht]
      · have e1 : pre ++ (str "\n\t" ++ indent m ++ t) = (pre ++ (10#8 :: 9#8 :: indent m)) ++ t := by
          rw [show str "\n\t" = [10#8, 9#8] by decide]; simp
        rw [e1, hlines, lines_append_nl, lines_tab_indent]
        simp
  obtain ⟨t, ht, hlines⟩ := aux l msgs h
  refine ⟨str "multiple errors:" ++ t, ?_, ?_⟩
  · match l, hl with
    | a :: b :: l, _ =>
      have : text (.errs (a :: b :: l)) = (do
        let rest ← texts (a :: b :: l)
        pure (str "multiple errors:" ++ rest)) := by
        cases a <;> rfl
      rw [this, ht]; rfl
  · rw [hlines, show lines (str "multiple errors:") = [str "multiple errors:"] by decide +kernel]
    rfl

/-- C37: an empty list and a single error. -/
theorem C37_message_short (e : E) :
    text (.errs []) = .ok (str "no errors") ∧ text (.errs [some e]) = text e := by
  exact ⟨rfl, rfl⟩

example : text (.errs [some (.leaf (str "a\nb")), some (.errs [some (.leaf (str "c"))])]) =
    .ok (str "multiple errors:\n\ta\n\tb\n\tc") := by decide +kernel
example : union [none, some (.errs [some (.leaf [1]), none]), some (.leaf [2])] =
    some (.errs [some (.leaf [1]), some (.leaf [2])]) := by
  rw [union_eq]; rfl

end Props

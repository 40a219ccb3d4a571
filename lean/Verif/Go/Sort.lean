import Verif.Go.Basic
/-!
# Go string order, `sort.Sort`, map iteration order
-/
namespace Go

/-- `a < b` on Go strings. -/
def bytesLt : Bytes → Bytes → Bool
  | _, [] => false
  | [], _ :: _ => true
  | a :: as, b :: bs =>
    if a.toNat < b.toNat then true
    else if b.toNat < a.toNat then false
    else bytesLt as bs

theorem bytesLt_irrefl (a : Bytes) : bytesLt a a = false := by
  induction a with
  | nil => rfl
  | cons x a ih => simp [bytesLt, ih]

theorem bytesLt_trans : ∀ {a b c : Bytes}, bytesLt a b = true → bytesLt b c = true →
    bytesLt a c = true
  | a, [], _, h, _ => by cases a <;> simp [bytesLt] at h
  | _, _ :: _, [], _, h => by simp [bytesLt] at h
  | [], _ :: _, _ :: _, _, _ => rfl
  | x :: a, y :: b, z :: c, h1, h2 => by
    simp only [bytesLt] at h1 h2 ⊢
    split at h1
    · split at h2
      · rw [if_pos (by omega)]
      · split at h2
        · cases h2
        · rw [if_pos (by omega)]
    · split at h1
      · cases h1
      · split at h2
        · rw [if_pos (by omega)]
        · split at h2
          · cases h2
          · rw [if_neg (by omega), if_neg (by omega)]
            exact bytesLt_trans h1 h2

theorem bytesLt_total : ∀ {a b : Bytes}, a ≠ b → bytesLt a b = true ∨ bytesLt b a = true
  | [], [], h => absurd rfl h
  | [], _ :: _, _ => .inl rfl
  | _ :: _, [], _ => .inr rfl
  | x :: a, y :: b, h => by
    simp only [bytesLt]
    by_cases h1 : x.toNat < y.toNat
    · simp [h1]
    · by_cases h2 : y.toNat < x.toNat
      · simp [h2]
      · rw [if_neg h1, if_neg h2, if_neg h2, if_neg h1]
        have : x = y := BitVec.eq_of_toNat_eq (by omega)
        subst this
        exact bytesLt_total (fun e => h (by rw [e]))

/-- `less` is a strict weak ordering, as `sort.Interface` requires. -/
structure StrictWeak {α : Type} (less : α → α → Bool) : Prop where
  irrefl : ∀ a, less a a = false
  trans : ∀ a b c, less a b = true → less b c = true → less a c = true
  incomp : ∀ a b c, less a b = false → less b c = false → less a c = false

theorem strictWeak_bytes {α : Type} (key : α → Bytes) :
    StrictWeak fun a b => bytesLt (key a) (key b) where
  irrefl a := bytesLt_irrefl _
  trans a b c := bytesLt_trans
  incomp a b c h1 h2 := by
    by_cases e : key b = key a
    · rw [← e]; exact h2
    · by_cases e' : key b = key c
      · rw [← e']; exact h1
      · cases h : bytesLt (key a) (key c) with
        | false => rfl
        | true =>
          rcases bytesLt_total e with h3 | h3
          · have := bytesLt_trans h3 h; rw [h2] at this; cases this
          · rw [h1] at h3; cases h3

/-- `sort.Sort`: some algorithm that permutes the slice, and sorts it when `less` is a strict weak
ordering. Which algorithm the Go library uses is not fixed. -/
structure Sorter where
  run : {α : Type} → (α → α → Bool) → List α → List α
  perm : ∀ {α : Type} (less : α → α → Bool) (l : List α), (run less l).Perm l
  sorted : ∀ {α : Type} (less : α → α → Bool) (l : List α), StrictWeak less →
    (run less l).Pairwise fun a b => less b a = false

/-- The iteration order of a map: any permutation, possibly a different one for each loop over a map
that is executed, identified by a list of numbers. -/
structure Iter where
  run : List Nat → {α : Type} → List α → List α
  perm : ∀ (k : List Nat) {α : Type} (l : List α), (run k l).Perm l

/-- Insert an element from the right: the inner loop of Go's `insertionSort`
(sort/zsortinterface.go), which `sort.Sort` uses for at most 12 elements. The argument is the sorted
part, reversed. -/
def insertRight {α : Type} (less : α → α → Bool) (x : α) : List α → List α
  | [] => [x]
  | y :: ys => if less x y then y :: insertRight less x ys else x :: y :: ys

/-- Go's `insertionSort`. -/
def insertionSort {α : Type} (less : α → α → Bool) (l : List α) : List α :=
  (l.foldl (fun acc x => insertRight less x acc) []).reverse

theorem insertRight_perm {α : Type} (less : α → α → Bool) (x : α) (l : List α) :
    (insertRight less x l).Perm (x :: l) := by
  induction l with
  | nil => exact .refl _
  | cons y ys ih =>
    simp only [insertRight]
    split
    · exact (List.Perm.cons y ih).trans (.swap x y ys)
    · exact .refl _

theorem insertRight_sorted {α : Type} {less : α → α → Bool} (h : StrictWeak less) (x : α) (l : List α)
    (hl : l.Pairwise fun a b => less a b = false) :
    (insertRight less x l).Pairwise fun a b => less a b = false := by
  induction l with
  | nil => simp [insertRight]
  | cons y ys ih =>
    obtain ⟨h1, h2⟩ := List.pairwise_cons.1 hl
    simp only [insertRight]
    split
    · rename_i hlt
      rw [List.pairwise_cons]
      refine ⟨?_, ih h2⟩
      intro a ha
      rcases List.mem_cons.1 ((insertRight_perm less x ys).mem_iff.1 ha) with rfl | ha
      · cases hb : less y a with
        | false => rfl
        | true =>
          have := h.trans _ _ _ hlt hb
          rw [h.irrefl] at this; cases this
      · exact h1 a ha
    · rename_i hlt
      rw [List.pairwise_cons]
      refine ⟨?_, hl⟩
      intro a ha
      have hxy : less x y = false := by simpa using hlt
      rcases List.mem_cons.1 ha with rfl | ha
      · exact hxy
      · exact h.incomp _ _ _ hxy (h1 a ha)

theorem foldl_insertRight {α : Type} (less : α → α → Bool) : ∀ (l acc : List α),
    (l.foldl (fun acc x => insertRight less x acc) acc).Perm (l ++ acc) ∧
    (StrictWeak less → acc.Pairwise (fun a b => less a b = false) →
      (l.foldl (fun acc x => insertRight less x acc) acc).Pairwise fun a b => less a b = false) := by
  intro l
  induction l with
  | nil => intro acc; exact ⟨.refl _, fun _ h => h⟩
  | cons x l ih =>
    intro acc
    obtain ⟨h1, h2⟩ := ih (insertRight less x acc)
    refine ⟨?_, fun hs ha => h2 hs (insertRight_sorted hs x acc ha)⟩
    refine h1.trans ?_
    exact ((insertRight_perm less x acc).append_left l).trans List.perm_middle

/-- Insertion sort meets the contract of `sort.Sort`. -/
def Sorter.insertion : Sorter where
  run := insertionSort
  perm less l := by
    simp only [insertionSort]
    refine (List.reverse_perm _).trans ?_
    simpa using (foldl_insertRight less l []).1
  sorted less l h := by
    simp only [insertionSort, List.pairwise_reverse]
    exact (foldl_insertRight less l []).2 h (by simp)

/-- Iteration in insertion order. -/
def Iter.id : Iter where
  run _ _ l := l
  perm _ _ _ := .refl _

/-- Iteration in reverse order. -/
def Iter.rev : Iter where
  run _ _ l := l.reverse
  perm _ _ l := List.reverse_perm l

/-- Two sorted permutations of each other, with distinct keys, are equal. -/
theorem sorted_unique {α : Type} (key : α → Bytes) {x y : List α}
    (h1 : x.Pairwise fun a b => bytesLt (key b) (key a) = false)
    (h2 : y.Pairwise fun a b => bytesLt (key b) (key a) = false) (hpp : x.Perm y)
    (hn1 : (x.map key).Nodup) : x = y := by
  induction x generalizing y with
  | nil => exact (List.nil_perm.1 hpp).symm
  | cons a x ih =>
    cases y with
    | nil => exact absurd hpp.length_eq (by simp)
    | cons b y =>
      have hab : a = b := by
        by_cases e : key a = key b
        · have hb : b ∈ a :: x := hpp.mem_iff.2 (by simp)
          rcases List.mem_cons.1 hb with hb | hb
          · exact hb.symm
          · exfalso
            simp only [List.map_cons, List.nodup_cons] at hn1
            exact hn1.1 (e ▸ List.mem_map_of_mem (f := key) hb)
        · exfalso
          have hb : b ∈ x := by
            have : b ∈ a :: x := hpp.mem_iff.2 (by simp)
            rcases List.mem_cons.1 this with hb | hb
            · exact absurd (by rw [hb]) e
            · exact hb
          have ha : a ∈ y := by
            have : a ∈ b :: y := hpp.mem_iff.1 (by simp)
            rcases List.mem_cons.1 this with hb | hb
            · exact absurd (by rw [hb]) e
            · exact hb
          have g1 := (List.pairwise_cons.1 h1).1 b hb
          have g2 := (List.pairwise_cons.1 h2).1 a ha
          rcases bytesLt_total e with h | h
          · rw [g2] at h; cases h
          · rw [g1] at h; cases h
      subst hab
      rw [ih (List.pairwise_cons.1 h1).2
        (List.pairwise_cons.1 h2).2 (List.Perm.cons_inv hpp)
        (by simp only [List.map_cons, List.nodup_cons] at hn1; exact hn1.2)]

/-- Sorting by distinct keys has one possible result. -/
theorem Sorter.unique {α : Type} (s s' : Sorter) (key : α → Bytes) {l l' : List α} (hp : l.Perm l')
    (hn : (l.map key).Nodup) :
    s.run (fun a b => bytesLt (key a) (key b)) l = s'.run (fun a b => bytesLt (key a) (key b)) l' := by
  have hp1 := s.perm (fun a b => bytesLt (key a) (key b)) l
  have hp2 := s'.perm (fun a b => bytesLt (key a) (key b)) l'
  exact sorted_unique key (s.sorted _ l (strictWeak_bytes key)) (s'.sorted _ l' (strictWeak_bytes key))
    (hp1.trans (hp.trans hp2.symm)) ((hp1.map key).nodup_iff.2 hn)

end Go

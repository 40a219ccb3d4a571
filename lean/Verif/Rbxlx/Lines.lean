import Verif.Go.Base64
/-!
# Writers that break lines (rbxlx/codec.go:1117-1149, 1675-1707)

Each `Write` of the underlying writer succeeds (they are a `bytes.Buffer` and a `strings.Builder`). The
counts of bytes that are returned are not modelled: their users ignore them (`base64.encoder` only looks
at the error).
-/
namespace Rbxlx
open Go

/-- The loop of `lineSplit.Write` (rbxlx/codec.go:1681-1707) on the bytes `p` that remain: what is written
and the new value of `l.n`; `s` is `l.s`. The first argument bounds the number of iterations. -/
def lineLoop (s : Nat) : Nat → Nat → Bytes → Bytes × Nat
  | 0, n, _ => ([], n)
  | fuel + 1, n, p =>
    let q := if p.length < n then p else p.take n
    let n := n - q.length
    let rest := p.drop q.length
    if rest = [] then (q, n)
    else if n = 0 then
      let r := lineLoop s fuel s rest
      (q ++ [10#8] ++ r.1, r.2)
    else
      let r := lineLoop s fuel n rest
      (q ++ r.1, r.2)

/-- `lineSplit.Write` (rbxlx/codec.go:1681-1707): what is written and the new value of `l.n`. -/
def lineWrite (s n : Nat) (p : Bytes) : Bytes × Nat := lineLoop s (p.length + 2) n p

/-- A sequence of writes to a `lineSplit`. -/
def lineWrites (s : Nat) : Nat → List Bytes → Bytes
  | _, [] => []
  | n, p :: ps =>
    let r := lineWrite s n p
    r.1 ++ lineWrites s r.2 ps

/-- The loop of `wrapWriter.Write` (rbxlx/codec.go:1127-1141): what is written, the new value of `w.c`, and
the rest of `p`; `l` is `w.l`. The first argument bounds the number of iterations. -/
def wrapLoop (l : Nat) : Nat → Nat → Bytes → Bytes × Nat × Bytes
  | 0, c, p => ([], c, p)
  | fuel + 1, c, p =>
    if c + p.length ≥ l then
      let i := l - c
      let r := wrapLoop l fuel 0 (p.drop i)
      (p.take i ++ [10#8] ++ r.1, r.2)
    else ([], c, p)

/-- `wrapWriter.Write` (rbxlx/codec.go:1127-1149): what is written and the new value of `w.c`. -/
def wrapWrite (l c : Nat) (p : Bytes) : Bytes × Nat :=
  let r := wrapLoop l (p.length + 1) c p
  (r.1 ++ r.2.2, r.2.1 + r.2.2.length)

/-- A sequence of writes to a `wrapWriter`. -/
def wrapWrites (l : Nat) : Nat → List Bytes → Bytes
  | _, [] => []
  | c, p :: ps =>
    let r := wrapWrite l c p
    r.1 ++ wrapWrites l r.2 ps

/-- The loop over `Large interior chunks` and the trailing fringe in `base64.encoder.Write`, followed by
`Close`: what is passed to the underlying writer by each call. The first argument bounds the number of
iterations. -/
def b64WritesLoop : Nat → Bytes → List Bytes
  | 0, _ => []
  | fuel + 1, p =>
    if 3 ≤ p.length then
      let nn := if 768 > p.length then p.length - p.length % 3 else 768
      b64Encode (p.take nn) :: b64WritesLoop fuel (p.drop nn)
    else if p = [] then [] else [b64Encode p]

/-- The writes caused by writing `p` to a base64 encoder and closing it. -/
def b64Writes (p : Bytes) : List Bytes := b64WritesLoop (p.length + 1) p

/-- Base64 in lines as for BinaryString and SharedString values (rbxlx/codec.go:1268-1272, 1616-1620). -/
def b64Split (p : Bytes) : Bytes := lineWrites 72 72 (b64Writes p)

/-- Base64 in lines as in the list of shared strings (rbxlx/codec.go:1190-1192). -/
def b64Wrap (p : Bytes) : Bytes := wrapWrites 72 0 (b64Writes p)

/-! ## Lemmas -/

/-- Insert a line feed before each byte that would be in column `s`; `n` is the number of columns left. -/
def splitAt (s : Nat) : Nat → Bytes → Bytes
  | _, [] => []
  | 0, b :: r => 10#8 :: b :: splitAt s (s - 1) r
  | n + 1, b :: r => b :: splitAt s n r

/-- The number of columns left. -/
def colsLeft (s : Nat) : Nat → Bytes → Nat
  | n, [] => n
  | 0, _ :: r => colsLeft s (s - 1) r
  | n + 1, _ :: r => colsLeft s n r

theorem splitAt_append (s : Nat) : ∀ (n : Nat) (p q : Bytes),
    splitAt s n (p ++ q) = splitAt s n p ++ splitAt s (colsLeft s n p) q
  | n, [], q => by simp [splitAt, colsLeft]
  | 0, b :: p, q => by simp [splitAt, colsLeft, splitAt_append s (s - 1) p q]
  | n + 1, b :: p, q => by simp [splitAt, colsLeft, splitAt_append s n p q]

theorem colsLeft_append (s : Nat) : ∀ (n : Nat) (p q : Bytes),
    colsLeft s n (p ++ q) = colsLeft s (colsLeft s n p) q
  | n, [], q => by simp [colsLeft]
  | 0, b :: p, q => by simp [colsLeft, colsLeft_append s (s - 1) p q]
  | n + 1, b :: p, q => by simp [colsLeft, colsLeft_append s n p q]

theorem splitAt_short (s : Nat) : ∀ (n : Nat) (p : Bytes), p.length ≤ n →
    splitAt s n p = p ∧ colsLeft s n p = n - p.length
  | n, [], _ => by simp [splitAt, colsLeft]
  | 0, b :: p, h => by simp at h
  | n + 1, b :: p, h => by
    obtain ⟨h1, h2⟩ := splitAt_short s n p (by simpa using h)
    simp [splitAt, colsLeft, h1, h2]

theorem splitAt_zero {s : Nat} (hs : 0 < s) {p : Bytes} (hp : p ≠ []) :
    splitAt s 0 p = 10#8 :: splitAt s s p ∧ colsLeft s 0 p = colsLeft s s p := by
  obtain ⟨s, rfl⟩ : ∃ k, s = k + 1 := ⟨s - 1, by omega⟩
  cases p with
  | nil => exact absurd rfl hp
  | cons b p => simp [splitAt, colsLeft]

theorem lineLoop_eq {s : Nat} (hs : 0 < s) : ∀ (fuel n : Nat) (p : Bytes),
    p.length + (if n = 0 then 1 else 0) < fuel → lineLoop s fuel n p = (splitAt s n p, colsLeft s n p)
  | 0, n, p, h => by omega
  | fuel + 1, n, p, h => by
    rw [lineLoop]
    by_cases hl : p.length ≤ n
    · have hq : (if p.length < n then p else p.take n) = p := by
        split
        · rfl
        · exact List.take_of_length_le hl
      obtain ⟨h1, h2⟩ := splitAt_short s n p hl
      simp only [hq, List.drop_length, if_true, h1, h2]
    · have hq : (if p.length < n then p else p.take n) = p.take n := by rw [if_neg (by omega)]
      have hlen : (p.take n).length = n := by rw [List.length_take]; omega
      have hd : p.drop n ≠ [] := by
        intro e
        rw [List.drop_eq_nil_iff] at e
        omega
      simp only [hq, hlen, Nat.sub_self, if_neg hd, if_true]
      have hfuel : (p.drop n).length + (if s = 0 then 1 else 0) < fuel := by
        rw [List.length_drop, if_neg (by omega)]
        split at h <;> omega
      rw [lineLoop_eq hs fuel s _ hfuel]
      have e := List.take_append_drop n p
      obtain ⟨h1, h2⟩ := splitAt_short s n (p.take n) (by omega)
      have h3 := splitAt_append s n (p.take n) (p.drop n)
      have h4 := colsLeft_append s n (p.take n) (p.drop n)
      rw [e, h2, hlen, Nat.sub_self] at h3 h4
      obtain ⟨h5, h6⟩ := splitAt_zero hs hd
      rw [h3, h4, h1, h5, h6]
      simp

theorem lineWrite_eq {s : Nat} (hs : 0 < s) (n : Nat) (p : Bytes) :
    lineWrite s n p = (splitAt s n p, colsLeft s n p) :=
  lineLoop_eq hs _ _ _ (by split <;> omega)

theorem lineWrites_eq {s : Nat} (hs : 0 < s) : ∀ (ps : List Bytes) (n : Nat),
    lineWrites s n ps = splitAt s n ps.flatten
  | [], n => by simp [lineWrites, splitAt]
  | p :: ps, n => by
    rw [lineWrites, lineWrite_eq hs, lineWrites_eq hs ps, List.flatten_cons, splitAt_append]

/-- Insert a line feed after each byte in column `l - 1`; `c` is the column. -/
def wrapAt (l : Nat) : Nat → Bytes → Bytes
  | _, [] => []
  | c, b :: r => if c + 1 ≥ l then b :: 10#8 :: wrapAt l 0 r else b :: wrapAt l (c + 1) r

/-- The new column. -/
def wrapCol (l : Nat) : Nat → Bytes → Nat
  | c, [] => c
  | c, _ :: r => if c + 1 ≥ l then wrapCol l 0 r else wrapCol l (c + 1) r

theorem wrapAt_append (l : Nat) : ∀ (c : Nat) (p q : Bytes),
    wrapAt l c (p ++ q) = wrapAt l c p ++ wrapAt l (wrapCol l c p) q
  | c, [], q => by simp [wrapAt, wrapCol]
  | c, b :: p, q => by
    simp only [List.cons_append, wrapAt, wrapCol]
    split <;> simp [wrapAt_append l _ p q]

theorem wrapAt_short (l : Nat) : ∀ (c : Nat) (p : Bytes), c + p.length < l →
    wrapAt l c p = p ∧ wrapCol l c p = c + p.length
  | c, [], _ => by simp [wrapAt, wrapCol]
  | c, b :: p, h => by
    simp only [List.length_cons] at h
    obtain ⟨h1, h2⟩ := wrapAt_short l (c + 1) p (by omega)
    simp only [wrapAt, wrapCol, if_neg (show ¬ c + 1 ≥ l by omega), h1, h2, List.length_cons]
    exact ⟨trivial, by omega⟩

theorem wrapAt_line {l : Nat} : ∀ (c : Nat) (p : Bytes), p ≠ [] → c + p.length = l →
    wrapAt l c p = p ++ [10#8] ∧ wrapCol l c p = 0
  | c, [], hp, _ => absurd rfl hp
  | c, [b], _, h => by
    simp only [List.length_cons, List.length_nil] at h
    simp only [wrapAt, wrapCol, if_pos (show c + 1 ≥ l by omega)]
    exact ⟨rfl, trivial⟩
  | c, b :: b' :: p, _, h => by
    simp only [List.length_cons] at h
    obtain ⟨h1, h2⟩ := wrapAt_line (l := l) (c + 1) (b' :: p) (by simp) (by simp only [List.length_cons]; omega)
    rw [wrapAt, wrapCol, if_neg (show ¬ c + 1 ≥ l by omega), if_neg (show ¬ c + 1 ≥ l by omega), h1, h2]
    exact ⟨rfl, rfl⟩

theorem wrapLoop_eq {l : Nat} (hl : 0 < l) : ∀ (fuel c : Nat) (p : Bytes), c < l → p.length < fuel →
    (wrapLoop l fuel c p).1 ++ (wrapLoop l fuel c p).2.2 = wrapAt l c p ∧
      (wrapLoop l fuel c p).2.1 + (wrapLoop l fuel c p).2.2.length = wrapCol l c p ∧ wrapCol l c p < l
  | 0, c, p, _, h => by omega
  | fuel + 1, c, p, hc, h => by
    rw [wrapLoop]
    by_cases hp : c + p.length ≥ l
    · rw [if_pos hp]
      have hlen : (p.take (l - c)).length = l - c := by rw [List.length_take]; omega
      have hne : p.take (l - c) ≠ [] := by
        intro e
        rw [e] at hlen
        simp at hlen
        omega
      obtain ⟨h1, h2⟩ := wrapAt_line (l := l) c (p.take (l - c)) hne (by omega)
      have e := List.take_append_drop (l - c) p
      have h3 := wrapAt_append l c (p.take (l - c)) (p.drop (l - c))
      have h4 : wrapCol l c (p.take (l - c) ++ p.drop (l - c)) = wrapCol l 0 (p.drop (l - c)) := by
        have : ∀ (c : Nat) (x y : Bytes), wrapCol l c (x ++ y) = wrapCol l (wrapCol l c x) y := by
          intro c x
          induction x generalizing c with
          | nil => intro y; simp [wrapCol]
          | cons b x ih =>
            intro y
            simp only [List.cons_append, wrapCol]
            split <;> rw [ih]
        rw [this, h2]
      rw [e] at h3 h4
      obtain ⟨g1, g2, g3⟩ := wrapLoop_eq hl fuel 0 (p.drop (l - c)) hl (by rw [List.length_drop]; omega)
      rw [h3, h1, h2, h4]
      refine ⟨?_, g2, g3⟩
      simp only [List.append_assoc]
      rw [g1]
    · rw [if_neg hp]
      obtain ⟨h1, h2⟩ := wrapAt_short l c p (by omega)
      rw [h1, h2]
      exact ⟨by simp, rfl, by omega⟩

theorem wrapWrites_eq {l : Nat} (hl : 0 < l) : ∀ (ps : List Bytes) (c : Nat), c < l →
    wrapWrites l c ps = wrapAt l c ps.flatten
  | [], c, _ => by simp [wrapWrites, wrapAt]
  | p :: ps, c, hc => by
    obtain ⟨h1, h2, h3⟩ := wrapLoop_eq hl (p.length + 1) c p hc (by omega)
    simp only [wrapWrites, wrapWrite, h1, h2, List.flatten_cons]
    rw [wrapWrites_eq hl ps _ h3, wrapAt_append]

theorem splitAt_filter (s : Nat) : ∀ (n : Nat) (p : Bytes), 10#8 ∉ p →
    (splitAt s n p).filter (fun c => decide (c ≠ 10#8)) = p
  | n, [], _ => by simp [splitAt]
  | 0, b :: p, h => by
    simp only [List.mem_cons, not_or] at h
    simp only [splitAt, List.filter_cons, splitAt_filter s (s - 1) p h.2]
    simp [Ne.symm h.1]
  | n + 1, b :: p, h => by
    simp only [List.mem_cons, not_or] at h
    simp only [splitAt, List.filter_cons, splitAt_filter s n p h.2]
    simp [Ne.symm h.1]

theorem wrapAt_filter (l : Nat) : ∀ (c : Nat) (p : Bytes), 10#8 ∉ p →
    (wrapAt l c p).filter (fun c => decide (c ≠ 10#8)) = p
  | c, [], _ => by simp [wrapAt]
  | c, b :: p, h => by
    simp only [List.mem_cons, not_or] at h
    simp only [wrapAt]
    split
    · simp only [List.filter_cons, wrapAt_filter l 0 p h.2]
      simp [Ne.symm h.1]
    · simp only [List.filter_cons, wrapAt_filter l (c + 1) p h.2]
      simp [Ne.symm h.1]

theorem b64Encode_append : ∀ (x y : Bytes), x.length % 3 = 0 → b64Encode (x ++ y) = b64Encode x ++ b64Encode y
  | [], y, _ => by simp [b64Encode]
  | [a], y, h => by simp at h
  | [a, b], y, h => by simp at h
  | a :: b :: c :: x, y, h => by
    simp only [List.length_cons] at h
    simp only [List.cons_append, b64Encode, List.append_assoc]
    rw [b64Encode_append x y (by omega)]

theorem b64WritesLoop_flatten : ∀ (fuel : Nat) (p : Bytes), p.length < fuel →
    (b64WritesLoop fuel p).flatten = b64Encode p
  | 0, p, h => by omega
  | fuel + 1, p, h => by
    rw [b64WritesLoop]
    split
    · rename_i h3
      have key : ∀ nn, 0 < nn → nn ≤ p.length → nn % 3 = 0 →
          (b64Encode (p.take nn) :: b64WritesLoop fuel (p.drop nn)).flatten = b64Encode p := by
        intro nn h0 h1 h2
        rw [List.flatten_cons, b64WritesLoop_flatten fuel _ (by rw [List.length_drop]; omega),
          ← b64Encode_append _ _ (by rw [List.length_take]; omega), List.take_append_drop]
      refine key _ ?_ ?_ ?_ <;> split <;> omega
    · split
      · subst_vars; rfl
      · simp

theorem b64Writes_flatten (p : Bytes) : (b64Writes p).flatten = b64Encode p :=
  b64WritesLoop_flatten _ _ (by omega)

theorem b64Encode_no_lf (p : Bytes) : 10#8 ∉ b64Encode p := by
  intro h
  have := b64Encode_bytes p _ h
  revert this; decide

theorem b64Split_eq (p : Bytes) : b64Split p = splitAt 72 72 (b64Encode p) := by
  rw [b64Split, lineWrites_eq (by decide), b64Writes_flatten]

theorem b64Wrap_eq (p : Bytes) : b64Wrap p = wrapAt 72 0 (b64Encode p) := by
  rw [b64Wrap, wrapWrites_eq (by decide) _ _ (by decide), b64Writes_flatten]

theorem b64Decode_split (p : Bytes) : b64Decode (b64Split p) = some p :=
  b64Decode_lines (by rw [b64Split_eq, splitAt_filter _ _ _ (b64Encode_no_lf p)])

theorem b64Decode_wrap (p : Bytes) : b64Decode (b64Wrap p) = some p :=
  b64Decode_lines (by rw [b64Wrap_eq, wrapAt_filter _ _ _ (b64Encode_no_lf p)])

theorem splitAt_bytes (s : Nat) : ∀ (n : Nat) (p : Bytes), ∀ c ∈ splitAt s n p, c = 10#8 ∨ c ∈ p
  | n, [], c, h => by simp [splitAt] at h
  | 0, b :: p, c, h => by
    simp only [splitAt, List.mem_cons] at h
    rcases h with h | h | h
    · exact .inl h
    · exact .inr (by simp [h])
    · rcases splitAt_bytes s (s - 1) p c h with h | h
      · exact .inl h
      · exact .inr (by simp [h])
  | n + 1, b :: p, c, h => by
    simp only [splitAt, List.mem_cons] at h
    rcases h with h | h
    · exact .inr (by simp [h])
    · rcases splitAt_bytes s n p c h with h | h
      · exact .inl h
      · exact .inr (by simp [h])

theorem wrapAt_bytes (l : Nat) : ∀ (n : Nat) (p : Bytes), ∀ c ∈ wrapAt l n p, c = 10#8 ∨ c ∈ p
  | n, [], c, h => by simp [wrapAt] at h
  | n, b :: p, c, h => by
    simp only [wrapAt] at h
    split at h
    · simp only [List.mem_cons] at h
      rcases h with h | h | h
      · exact .inr (by simp [h])
      · exact .inl h
      · rcases wrapAt_bytes l 0 p c h with h | h
        · exact .inl h
        · exact .inr (by simp [h])
    · simp only [List.mem_cons] at h
      rcases h with h | h
      · exact .inr (by simp [h])
      · rcases wrapAt_bytes l (n + 1) p c h with h | h
        · exact .inl h
        · exact .inr (by simp [h])

end Rbxlx

import Verif.Go.Basic
/-!
# Byte interleaving (rbxl/arrays.go:45-96)

The buffer is modified in place in Go; the model returns the new contents.
-/
namespace Rbxl
open Go

/-- `c[i] = b`, panicking when out of range. -/
def setAt (c : Bytes) (i : Nat) (b : Byte) : Res Bytes :=
  if i < c.length then .ok (c.set i b) else .panic

/-- `bytes[i], bytes[j] = bytes[j], bytes[i]`, panicking when out of range. -/
def swapAt (l : Bytes) (i j : Nat) : Res Bytes :=
  match l[i]?, l[j]? with
  | some x, some y => .ok ((l.set i y).set j x)
  | _, _ => .panic

/-- The index pairs visited by the nested loops `for r < rows { for c < r {...} }`
(rbxl/arrays.go:47-51). -/
def lowerPairs (rows : Nat) : List (Nat × Nat) :=
  (List.range rows).flatMap fun r => (List.range r).map fun c => (r, c)

/-- The square case of `transpose` (rbxl/arrays.go:46-53). -/
def transposeSquare (cols : Nat) : List (Nat × Nat) → Bytes → Res Bytes
  | [], l => .ok l
  | (r, c) :: ps, l => do
    let l ← swapAt l (r * cols + c) (c * cols + r)
    transposeSquare cols ps l

/-- The non-square loop of `transpose` (rbxl/arrays.go:55-64): `n` is `len(c)`. -/
def scatter (length n : Nat) : Bytes → Nat → Bytes → Res Bytes
  | [], _, c => .ok c
  | b :: bs, i, c => do
    let c ← setAt c i b
    let i := i + length
    let i := if i ≥ n then i - (n - 1) else i
    scatter length n bs i c

/-- `transpose` (rbxl/arrays.go:45-66). Division by zero panics. -/
def transpose (bytes : Bytes) (length : Nat) : Res Bytes :=
  if length = 0 then .panic
  else
    let rows := length
    let cols := bytes.length / length
    if rows = cols then transposeSquare cols (lowerPairs rows) bytes
    else scatter length bytes.length bytes 0 (List.replicate bytes.length 0#8)

/-- `interleave` (rbxl/arrays.go:76-85). -/
def interleave (bytes : Bytes) (size : Nat) : Res Bytes :=
  if size = 0 then .err (.other "size must be greater than 0")
  else if bytes.length % size ≠ 0 then .err (.other "size must be a divisor of array length")
  else transpose bytes (bytes.length / size)

/-- `deinterleave` (rbxl/arrays.go:87-96). -/
def deinterleave (bytes : Bytes) (size : Nat) : Res Bytes :=
  if size = 0 then .err (.other "size must be greater than 0")
  else if bytes.length % size ≠ 0 then .err (.other "size must be a divisor of array length")
  else transpose bytes size

/-! ## Lemmas -/

/-- Where the loop puts byte `k`. -/
def pos (length cols k : Nat) : Nat := (k % cols) * length + k / cols

theorem pos_lt {length cols k : Nat} (h : k < length * cols) : pos length cols k < length * cols := by
  have hc : 0 < cols := by
    rcases Nat.eq_zero_or_pos cols with h0 | h0
    · subst h0; simp at h
    · exact h0
  have h1 : k / cols < length := (Nat.div_lt_iff_lt_mul hc).mpr h
  have h2 : k % cols < cols := Nat.mod_lt _ hc
  have : (k % cols + 1) * length ≤ cols * length := Nat.mul_le_mul_right _ h2
  unfold pos
  rw [Nat.add_mul] at this
  rw [Nat.mul_comm length cols]; omega

theorem pos_inj {length cols k k' : Nat} (h : k < length * cols) (h' : k' < length * cols)
    (e : pos length cols k = pos length cols k') : k = k' := by
  have hc : 0 < cols := by
    rcases Nat.eq_zero_or_pos cols with h0 | h0
    · subst h0; simp at h
    · exact h0
  have hl : 0 < length := by
    rcases Nat.eq_zero_or_pos length with h0 | h0
    · subst h0; simp at h
    · exact h0
  have h1 : k / cols < length := (Nat.div_lt_iff_lt_mul hc).mpr h
  have h1' : k' / cols < length := (Nat.div_lt_iff_lt_mul hc).mpr h'
  unfold pos at e
  have e1 : k / cols = k' / cols := by
    have := congrArg (· % length) e
    simpa [Nat.add_mod, Nat.mod_eq_of_lt h1, Nat.mod_eq_of_lt h1'] using this
  have e2 : k % cols = k' % cols := by
    rw [e1] at e
    exact Nat.eq_of_mul_eq_mul_right hl (by omega)
  rw [← Nat.div_add_mod k cols, ← Nat.div_add_mod k' cols, e1, e2]

theorem pos_succ {length cols k : Nat} (h : k + 1 < length * cols) (hc : 0 < cols) :
    (if pos length cols k + length ≥ length * cols
      then pos length cols k + length - (length * cols - 1)
      else pos length cols k + length) = pos length cols (k + 1) := by
  have h1 : k / cols < length := (Nat.div_lt_iff_lt_mul hc).mpr (by omega)
  have h2 : k % cols < cols := Nat.mod_lt _ hc
  unfold pos
  by_cases hm : k % cols + 1 = cols
  · -- end of a row
    have e1 : (k + 1) % cols = 0 := by
      rw [Nat.add_mod]
      by_cases hone : cols = 1
      · subst hone; simp [Nat.mod_one]
      · rw [Nat.mod_eq_of_lt (show 1 < cols by omega), hm, Nat.mod_self]
    have e2 : (k + 1) / cols = k / cols + 1 := by
      have hk := Nat.div_add_mod k cols
      have : k + 1 = cols * (k / cols + 1) := by rw [Nat.mul_add]; omega
      rw [this, Nat.mul_div_cancel_left _ hc]
    have hkm : k % cols * length + length = length * cols := by
      have : k % cols = cols - 1 := by omega
      rw [this, Nat.sub_mul, Nat.mul_comm length cols]
      have : 1 * length ≤ cols * length := Nat.mul_le_mul_right _ hc
      omega
    rw [e1, e2]
    clear e1 e2 h1
    generalize k / cols = q
    rw [if_pos (by omega)]; omega
  · have hlt : k % cols + 1 < cols := by omega
    have e1 : (k + 1) % cols = k % cols + 1 := by
      rw [Nat.add_mod]
      rw [Nat.mod_eq_of_lt (show 1 < cols by omega), Nat.mod_eq_of_lt hlt]
    have e2 : (k + 1) / cols = k / cols := by
      have hk := Nat.div_add_mod k cols
      have : k + 1 = cols * (k / cols) + (k % cols + 1) := by omega
      rw [this, Nat.mul_add_div hc, Nat.div_eq_of_lt hlt, Nat.add_zero]
    have hle : (k % cols + 2) * length ≤ cols * length := Nat.mul_le_mul_right _ (by omega)
    rw [e1, e2, Nat.add_mul, Nat.one_mul, if_neg]
    · omega
    · rw [Nat.add_mul, Nat.mul_comm cols length] at hle; omega

theorem scatter_spec (length cols : Nat) (hc : 0 < cols) (full : Bytes)
    (hfull : full.length = length * cols) :
    ∀ (bs : Bytes) (k : Nat) (c : Bytes), full.drop k = bs → c.length = full.length →
      (∀ j, j < k → c[pos length cols j]? = full[j]?) →
      ∃ out, scatter length full.length bs (pos length cols k) c = .ok out ∧
        out.length = full.length ∧ ∀ j, j < full.length → out[pos length cols j]? = full[j]? := by
  intro bs
  induction bs with
  | nil =>
    intro k c hd hl hinv
    refine ⟨c, rfl, hl, fun j hj => hinv j ?_⟩
    have := congrArg List.length hd
    simp at this; omega
  | cons b bs ih =>
    intro k c hd hl hinv
    have hk : k < full.length := by
      have := congrArg List.length hd
      simp at this; omega
    have hb : full[k]? = some b := by
      have := congrArg (fun l => l[0]?) hd
      simpa using this
    have hd' : full.drop (k + 1) = bs := by
      have := congrArg List.tail hd
      simpa [List.tail_drop] using this
    have hp : pos length cols k < c.length := by
      rw [hl, hfull]; exact pos_lt (by omega)
    simp only [scatter, setAt, if_pos hp, Res.ok_bind]
    have hinv' : ∀ j, j < k + 1 → (c.set (pos length cols k) b)[pos length cols j]? = full[j]? := by
      intro j hj
      by_cases hjk : j = k
      · subst hjk; rw [hb]; simp [hp]
      · have hne : pos length cols k ≠ pos length cols j := fun e =>
          hjk (pos_inj (by omega) (by omega) e.symm)
        rw [List.getElem?_set_ne hne]; exact hinv j (by omega)
    by_cases hlast : k + 1 < full.length
    · have := pos_succ (length := length) (cols := cols) (k := k) (by omega) hc
      rw [← hfull] at this
      rw [this]
      exact ih (k + 1) _ hd' (by simp [hl]) hinv'
    · have hbs : bs = [] := by
        have := congrArg List.length hd'
        rw [List.length_drop] at this
        exact List.eq_nil_of_length_eq_zero (by omega)
      subst hbs
      refine ⟨_, rfl, by simp [hl], fun j hj => hinv' j (by omega)⟩

theorem idx_inj {n r c r' c' : Nat} (hc : c < n) (hc' : c' < n)
    (e : r * n + c = r' * n + c') : r = r' ∧ c = c' := by
  have hn : 0 < n := by omega
  have e1 : r = r' := by
    have := congrArg (· / n) e
    rw [Nat.mul_comm r, Nat.mul_comm r'] at this
    simpa [Nat.mul_add_div hn, Nat.div_eq_of_lt hc, Nat.div_eq_of_lt hc'] using this
  subst e1
  exact ⟨rfl, by omega⟩

theorem idx_lt {n r c : Nat} (hr : r < n) (hc : c < n) : r * n + c < n * n := by
  have : (r + 1) * n ≤ n * n := Nat.mul_le_mul_right _ hr
  rw [Nat.add_mul] at this; omega

theorem transposeSquare_spec (n : Nat) (orig : Bytes) (hlen : orig.length = n * n) :
    ∀ (ps done : List (Nat × Nat)) (l : Bytes), (done ++ ps).Nodup →
      (∀ p ∈ done ++ ps, p.2 < p.1 ∧ p.1 < n) → l.length = orig.length →
      (∀ r c, r < n → c < n → l[r * n + c]? =
        if (r, c) ∈ done ∨ (c, r) ∈ done then orig[c * n + r]? else orig[r * n + c]?) →
      ∃ out, transposeSquare n ps l = .ok out ∧ out.length = orig.length ∧
        (∀ r c, r < n → c < n → out[r * n + c]? =
          if (r, c) ∈ done ++ ps ∨ (c, r) ∈ done ++ ps then orig[c * n + r]?
          else orig[r * n + c]?) := by
  intro ps
  induction ps with
  | nil =>
    intro done l hnd hps hl hinv
    exact ⟨l, rfl, hl, by simpa using hinv⟩
  | cons p ps ih =>
    intro done l hnd hps hl hinv
    obtain ⟨r0, c0⟩ := p
    have hp := hps (r0, c0) (by simp)
    simp only at hp
    have hr0 : r0 < n := hp.2
    have hc0 : c0 < n := by omega
    have hi : r0 * n + c0 < l.length := by rw [hl, hlen]; exact idx_lt hr0 hc0
    have hj : c0 * n + r0 < l.length := by rw [hl, hlen]; exact idx_lt hc0 hr0
    have hnot : (r0, c0) ∉ done := by
      intro hm
      rw [List.nodup_append] at hnd
      exact hnd.2.2 _ hm _ (by simp) rfl
    have hnot' : (c0, r0) ∉ done := by
      intro hm
      have := (hps (c0, r0) (by simp [hm])).1
      simp only at this; omega
    have hgi : l[r0 * n + c0]? = orig[r0 * n + c0]? := by
      rw [hinv r0 c0 hr0 hc0]; simp [hnot, hnot']
    have hgj : l[c0 * n + r0]? = orig[c0 * n + r0]? := by
      rw [hinv c0 r0 hc0 hr0]; simp [hnot, hnot']
    obtain ⟨x, hx⟩ : ∃ x, l[r0 * n + c0]? = some x := ⟨_, List.getElem?_eq_getElem hi⟩
    obtain ⟨y, hy⟩ : ∃ y, l[c0 * n + r0]? = some y := ⟨_, List.getElem?_eq_getElem hj⟩
    simp only [transposeSquare, swapAt, hx, hy, Res.ok_bind]
    have hnd' : ((done ++ [(r0, c0)]) ++ ps).Nodup := by simpa using hnd
    have hstep := ih (done ++ [(r0, c0)]) ((l.set (r0 * n + c0) y).set (c0 * n + r0) x) hnd'
      (by simpa using hps) (by simp [hl]) ?_
    · simpa using hstep
    · intro r c hr hc
      by_cases h1 : r = r0 ∧ c = c0
      · obtain ⟨rfl, rfl⟩ := h1
        have hne : c * n + r ≠ r * n + c := by
          intro e
          have := idx_inj hr hc e; omega
        rw [List.getElem?_set_ne hne, List.getElem?_set_self hi]
        simp [← hgj, hy]
      · by_cases h2 : r = c0 ∧ c = r0
        · obtain ⟨rfl, rfl⟩ := h2
          rw [List.getElem?_set_self (by simpa using hj)]
          simp [← hgi, hx]
        · have hne1 : c0 * n + r0 ≠ r * n + c := by
            intro e
            have := idx_inj hr0 hc e; exact h2 ⟨this.1.symm, this.2.symm⟩
          have hne2 : r0 * n + c0 ≠ r * n + c := by
            intro e
            have := idx_inj hc0 hc e; exact h1 ⟨this.1.symm, this.2.symm⟩
          rw [List.getElem?_set_ne hne1, List.getElem?_set_ne hne2, hinv r c hr hc]
          have m1 : ((r, c) ∈ done ++ [(r0, c0)]) ↔ (r, c) ∈ done := by
            simp [h1]
          have m2 : ((c, r) ∈ done ++ [(r0, c0)]) ↔ (c, r) ∈ done := by
            simp; intro e1 e2; exact absurd ⟨e2, e1⟩ h2
          simp only [m1, m2]

theorem mem_lowerPairs {n r c : Nat} : (r, c) ∈ lowerPairs n ↔ c < r ∧ r < n := by
  simp only [lowerPairs, List.mem_flatMap, List.mem_map, List.mem_range, Prod.mk.injEq]
  constructor
  · rintro ⟨a, ha, b, hb, rfl, rfl⟩; exact ⟨hb, ha⟩
  · rintro ⟨h1, h2⟩; exact ⟨r, h2, c, h1, rfl, rfl⟩

theorem nodup_lowerPairs (n : Nat) : (lowerPairs n).Nodup := by
  induction n with
  | zero => simp [lowerPairs]
  | succ n ih =>
    have : lowerPairs (n + 1) = lowerPairs n ++ (List.range n).map fun c => (n, c) := by
      simp [lowerPairs, List.range_succ, List.flatMap_append]
    rw [this, List.nodup_append]
    refine ⟨ih, ?_, ?_⟩
    · rw [List.Nodup, List.pairwise_map]
      refine List.Pairwise.imp ?_ (List.nodup_range (n := n))
      intro a b hab e; exact hab (by simpa using e)
    · rintro ⟨r, c⟩ h1 p h2 e
      have := (mem_lowerPairs.mp h1).2
      simp only [List.mem_map] at h2
      obtain ⟨a, _, rfl⟩ := h2
      simp only [Prod.mk.injEq] at e; omega

/-- `transpose` on a buffer of `length * cols` bytes. -/
theorem transpose_spec (bytes : Bytes) (length cols : Nat) (hl : 0 < length)
    (h : bytes.length = length * cols) :
    ∃ out, transpose bytes length = .ok out ∧ out.length = bytes.length ∧
      ∀ j, j < bytes.length → out[pos length cols j]? = bytes[j]? := by
  have hcols : bytes.length / length = cols := by rw [h, Nat.mul_div_cancel_left _ hl]
  simp only [transpose, if_neg (show ¬ length = 0 by omega), hcols]
  by_cases hsq : length = cols
  · subst hsq
    simp only [if_true]
    obtain ⟨out, h1, h2, h3⟩ := transposeSquare_spec length bytes h (lowerPairs length) [] bytes
      (by simpa using nodup_lowerPairs length)
      (by rintro ⟨r, c⟩ hp; exact mem_lowerPairs.mp (by simpa using hp)) rfl (by simp)
    refine ⟨out, h1, h2, fun j hj => ?_⟩
    have hc : j / length < length := (Nat.div_lt_iff_lt_mul hl).mpr (by omega)
    have hr : j % length < length := Nat.mod_lt _ hl
    have hj' : j / length * length + j % length = j := by
      rw [Nat.mul_comm]; exact Nat.div_add_mod j length
    have := h3 (j % length) (j / length) hr hc
    simp only [List.nil_append, mem_lowerPairs, hj'] at this
    unfold pos
    rw [this]
    by_cases e : j % length = j / length
    · rw [if_neg (by omega)]
      have : j % length * length + j / length = j := by rw [e] at hj' ⊢; omega
      rw [this]
    · rw [if_pos (by omega)]
  · simp only [if_neg hsq]
    rcases Nat.eq_zero_or_pos cols with h0 | hc
    · subst h0
      have : bytes = [] := List.eq_nil_of_length_eq_zero (by simpa using h)
      subst this
      exact ⟨[], rfl, rfl, by simp⟩
    · have := scatter_spec length cols hc bytes h bytes 0 (List.replicate bytes.length 0#8)
        (by simp) (by simp) (by omega)
      simpa [pos] using this

theorem interleave_spec (bytes : Bytes) (size count : Nat) (hs : 0 < size) (hc : 0 < count)
    (h : bytes.length = count * size) :
    ∃ out, interleave bytes size = .ok out ∧ out.length = bytes.length ∧
      ∀ i j, i < count → j < size → out[j * count + i]? = bytes[i * size + j]? := by
  have hd : bytes.length / size = count := by rw [h, Nat.mul_div_cancel _ hs]
  have hm : bytes.length % size = 0 := by rw [h, Nat.mul_mod_left]
  obtain ⟨out, h1, h2, h3⟩ := transpose_spec bytes count size hc h
  refine ⟨out, ?_, h2, ?_⟩
  · simp only [interleave, if_neg (show ¬ size = 0 by omega), hd, hm]; simpa using h1
  · intro i j hi hj
    have hk : i * size + j < bytes.length := by
      rw [h]
      have : (i + 1) * size ≤ count * size := Nat.mul_le_mul_right _ hi
      rw [Nat.add_mul] at this; omega
    have := h3 (i * size + j) hk
    have e1 : (i * size + j) % size = j := by
      rw [Nat.mul_comm, Nat.mul_add_mod, Nat.mod_eq_of_lt hj]
    have e2 : (i * size + j) / size = i := by
      rw [Nat.mul_comm, Nat.mul_add_div hs, Nat.div_eq_of_lt hj, Nat.add_zero]
    simpa [pos, e1, e2] using this

theorem deinterleave_spec (bytes : Bytes) (size count : Nat) (hs : 0 < size)
    (h : bytes.length = count * size) :
    ∃ out, deinterleave bytes size = .ok out ∧ out.length = bytes.length ∧
      ∀ i j, i < count → j < size → out[i * size + j]? = bytes[j * count + i]? := by
  have hm : bytes.length % size = 0 := by rw [h, Nat.mul_mod_left]
  obtain ⟨out, h1, h2, h3⟩ := transpose_spec bytes size count hs (by rw [h, Nat.mul_comm])
  refine ⟨out, ?_, h2, ?_⟩
  · simp only [deinterleave, if_neg (show ¬ size = 0 by omega), hm]; simpa using h1
  · intro i j hi hj
    have hc : 0 < count := by omega
    have hk : j * count + i < bytes.length := by
      rw [h]
      have : (j + 1) * count ≤ size * count := Nat.mul_le_mul_right _ hj
      rw [Nat.add_mul, Nat.mul_comm size] at this; omega
    have := h3 (j * count + i) hk
    have e1 : (j * count + i) % count = i := by
      rw [Nat.mul_comm, Nat.mul_add_mod, Nat.mod_eq_of_lt hi]
    have e2 : (j * count + i) / count = j := by
      rw [Nat.mul_comm, Nat.mul_add_div hc, Nat.div_eq_of_lt hi, Nat.add_zero]
    simpa [pos, e1, e2] using this

/-- Two buffers of `count * size` bytes agreeing at all (value, byte) positions are equal. -/
theorem ext_grid {a b : Bytes} {size count : Nat} (hs : 0 < size) (ha : a.length = count * size)
    (hb : b.length = count * size)
    (h : ∀ i j, i < count → j < size → a[i * size + j]? = b[i * size + j]?) : a = b := by
  apply List.ext_getElem?
  intro k
  by_cases hk : k < count * size
  · have h1 : k / size < count := (Nat.div_lt_iff_lt_mul hs).mpr hk
    have := h (k / size) (k % size) h1 (Nat.mod_lt _ hs)
    have e : k / size * size + k % size = k := by rw [Nat.mul_comm]; exact Nat.div_add_mod k size
    rwa [e] at this
  · rw [List.getElem?_eq_none (by omega), List.getElem?_eq_none (by omega)]

/-- `deinterleave` undoes `interleave`. -/
theorem deinterleave_interleave (bytes : Bytes) (size count : Nat) (hs : 0 < size) (hc : 0 < count)
    (h : bytes.length = count * size) :
    ∃ out, interleave bytes size = .ok out ∧ out.length = bytes.length ∧
      deinterleave out size = .ok bytes := by
  obtain ⟨out, h1, h2, h3⟩ := interleave_spec bytes size count hs hc h
  obtain ⟨out', g1, g2, g3⟩ := deinterleave_spec out size count hs (by omega)
  refine ⟨out, h1, h2, ?_⟩
  rw [g1]
  congr 1
  apply ext_grid hs (by omega) h
  intro i j hi hj
  rw [g3 i j hi hj, h3 i j hi hj]

theorem interleave_deinterleave (bytes : Bytes) (size count : Nat) (hs : 0 < size) (hc : 0 < count)
    (h : bytes.length = count * size) :
    ∃ out, deinterleave bytes size = .ok out ∧ out.length = bytes.length ∧
      interleave out size = .ok bytes := by
  obtain ⟨out, h1, h2, h3⟩ := deinterleave_spec bytes size count hs h
  obtain ⟨out', g1, g2, g3⟩ := interleave_spec out size count hs hc (by omega)
  refine ⟨out, h1, h2, ?_⟩
  rw [g1]
  congr 1
  apply ext_grid (size := count) (count := size) hc
    (by rw [Nat.mul_comm]; omega) (by rw [Nat.mul_comm]; omega)
  intro j i hj hi
  rw [g3 i j hi hj, h3 i j hi hj]

end Rbxl

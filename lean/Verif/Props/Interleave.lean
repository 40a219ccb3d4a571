import Verif.Rbxl.Interleave
/-!
# C04: byte interleaving
-/
namespace Props
open Go Rbxl

/-- C04: interleaving `count ≥ 1` values of `size` bytes moves byte `j` of value `i` to position
`j*count+i`, and changes nothing else (the length is kept). -/
theorem C04_interleave_layout (bytes : Bytes) (size count : Nat) (hs : 0 < size) (hc : 0 < count)
    (h : bytes.length = count * size) :
    ∃ out, interleave bytes size = .ok out ∧ out.length = bytes.length ∧
      ∀ i j, i < count → j < size → out[j * count + i]? = bytes[i * size + j]? :=
  interleave_spec bytes size count hs hc h

/-- C04: deinterleaving undoes interleaving. -/
theorem C04_deinterleave_interleave (bytes : Bytes) (size count : Nat) (hs : 0 < size)
    (hc : 0 < count) (h : bytes.length = count * size) :
    (interleave bytes size >>= fun out => deinterleave out size) = .ok bytes := by
  obtain ⟨out, h1, _, h3⟩ := deinterleave_interleave bytes size count hs hc h
  simp [h1, h3]

/-- C04: interleaving undoes deinterleaving. -/
theorem C04_interleave_deinterleave (bytes : Bytes) (size count : Nat) (hs : 0 < size)
    (hc : 0 < count) (h : bytes.length = count * size) :
    (deinterleave bytes size >>= fun out => interleave out size) = .ok bytes := by
  obtain ⟨out, h1, _, h3⟩ := interleave_deinterleave bytes size count hs hc h
  simp [h1, h3]

/-- C04: a length that is not a multiple of the size is rejected by both. -/
theorem C04_bad_length (bytes : Bytes) (size : Nat) (hs : 0 < size) (h : ¬ size ∣ bytes.length) :
    (interleave bytes size).isErr ∧ (deinterleave bytes size).isErr := by
  have h' : bytes.length % size ≠ 0 := fun e => h (Nat.dvd_of_mod_eq_zero e)
  have h0 : size ≠ 0 := by omega
  simp [interleave, deinterleave, h0, h']

/-- C04, the excluded corner: interleaving an empty buffer divides by zero and panics. -/
theorem C04_empty_panics (size : Nat) (hs : 0 < size) : interleave [] size = .panic := by
  have h0 : size ≠ 0 := by omega
  simp [interleave, h0, transpose]

/-- The hypotheses are met both on the square path and on the other one. -/
example : interleave [1, 2, 3, 4, 5, 6, 7, 8, 9] 3 = .ok [1, 4, 7, 2, 5, 8, 3, 6, 9] := by decide
example : interleave [1, 2, 3, 4, 5, 6, 7, 8] 4 = .ok [1, 5, 2, 6, 3, 7, 4, 8] := by decide
example : deinterleave [1, 5, 2, 6, 3, 7, 4, 8] 4 = .ok [1, 2, 3, 4, 5, 6, 7, 8] := by decide
example : (interleave [1, 2, 3] 2).isErr := (C04_bad_length _ 2 (by decide) (by decide)).1

end Props

import Verif.Rbxlx.Lines
/-!
# C43, C60: base64 and line breaks in the XML format
-/
namespace Props
open Go Rbxlx

/-! ## C60 -/

theorem splitAt_lines {s : Nat} (hs : 0 < s) : ∀ (k : Nat) (p : Bytes), p.length ≤ k → ∃ lines : List Bytes,
    splitAt s s p = [10#8].intercalate lines ∧ lines.flatten = p ∧
    (∀ l ∈ lines.dropLast, l.length = s) ∧ ∀ l ∈ lines, 0 < l.length ∧ l.length ≤ s
  | k, [], _ => ⟨[], by simp [splitAt, List.intercalate]⟩
  | 0, b :: p, h => by simp at h
  | k + 1, b :: p, h => by
    by_cases hl : (b :: p).length ≤ s
    · refine ⟨[b :: p], ?_, by simp, by simp, by simpa using hl⟩
      rw [(splitAt_short s s _ hl).1]
      simp [List.intercalate]
    · have hlen : ((b :: p).take s).length = s := by rw [List.length_take]; omega
      have hd : (b :: p).drop s ≠ [] := by
        intro e; rw [List.drop_eq_nil_iff] at e; omega
      obtain ⟨lines, h1, h2, h3, h4⟩ := splitAt_lines hs k ((b :: p).drop s) (by
        rw [List.length_drop]; simp only [List.length_cons] at h ⊢; omega)
      have hne : lines ≠ [] := by rintro rfl; exact hd (by rw [← h2]; rfl)
      refine ⟨(b :: p).take s :: lines, ?_, ?_, ?_, ?_⟩
      · have e := splitAt_append s s ((b :: p).take s) ((b :: p).drop s)
        obtain ⟨g1, g2⟩ := splitAt_short s s ((b :: p).take s) (by omega)
        rw [List.take_append_drop, g1, g2, hlen, Nat.sub_self, (splitAt_zero hs hd).1, h1] at e
        rw [e]
        obtain ⟨l0, ls, rfl⟩ := List.exists_cons_of_ne_nil hne
        simp [List.intercalate]
      · rw [List.flatten_cons, h2, List.take_append_drop]
      · intro l hm
        rw [List.dropLast_cons_of_ne_nil hne] at hm
        rcases List.mem_cons.1 hm with rfl | hm
        · exact hlen
        · exact h3 l hm
      · intro l hm
        rcases List.mem_cons.1 hm with rfl | hm
        · omega
        · exact h4 l hm

/-- **C60.** Whatever is written to the line-splitting writer, in whichever pieces: the output consists of the
data in lines separated by line feeds; every line but the last has exactly `s` columns, the last one between
1 and `s`. -/
theorem C60_split {s : Nat} (hs : 0 < s) (ps : List Bytes) : ∃ lines : List Bytes,
    lineWrites s s ps = [10#8].intercalate lines ∧ lines.flatten = ps.flatten ∧
    (∀ l ∈ lines.dropLast, l.length = s) ∧ ∀ l ∈ lines, 0 < l.length ∧ l.length ≤ s := by
  rw [lineWrites_eq hs]
  exact splitAt_lines hs _ _ (Nat.le_refl _)

/-- **C60.** The output of the line-splitting writer depends on the concatenation of the data only. -/
theorem C60_split_independent {s : Nat} (hs : 0 < s) {ps qs : List Bytes} (h : ps.flatten = qs.flatten) :
    lineWrites s s ps = lineWrites s s qs := by
  rw [lineWrites_eq hs, lineWrites_eq hs, h]

/-- **C60.** Deleting the line feeds gives back the data, if the data has none. -/
theorem C60_split_data {s : Nat} (hs : 0 < s) {ps : List Bytes} (h : 10#8 ∉ ps.flatten) :
    (lineWrites s s ps).filter (fun c => decide (c ≠ 10#8)) = ps.flatten := by
  rw [lineWrites_eq hs, splitAt_filter _ _ _ h]

theorem wrapAt_lines {l : Nat} (hl : 0 < l) : ∀ (k : Nat) (p : Bytes), p.length ≤ k → ∃ (lines : List Bytes) (rest : Bytes),
    wrapAt l 0 p = (lines.map (· ++ [10#8])).flatten ++ rest ∧ lines.flatten ++ rest = p ∧
    (∀ x ∈ lines, x.length = l) ∧ rest.length < l
  | k, [], _ => ⟨[], [], by simp [wrapAt, hl]⟩
  | 0, b :: p, h => by simp at h
  | k + 1, b :: p, h => by
    by_cases hb : (b :: p).length < l
    · exact ⟨[], b :: p, by rw [(wrapAt_short l 0 _ (by omega)).1]; simp, by simp, by simp, hb⟩
    · have hlen : ((b :: p).take l).length = l := by rw [List.length_take]; omega
      obtain ⟨lines, rest, h1, h2, h3, h4⟩ := wrapAt_lines hl k ((b :: p).drop l) (by
        rw [List.length_drop]; simp only [List.length_cons] at h ⊢; omega)
      refine ⟨(b :: p).take l :: lines, rest, ?_, ?_, ?_, h4⟩
      · have e := wrapAt_append l 0 ((b :: p).take l) ((b :: p).drop l)
        obtain ⟨g1, g2⟩ := wrapAt_line (l := l) 0 ((b :: p).take l)
          (by intro e; rw [e] at hlen; simp at hlen; omega) (by omega)
        rw [List.take_append_drop, g1, g2, h1] at e
        rw [e]; simp
      · rw [List.flatten_cons, List.append_assoc, h2, List.take_append_drop]
      · intro x hx
        rcases List.mem_cons.1 hx with rfl | hx
        · exact hlen
        · exact h3 x hx

/-- **C60.** Whatever is written to the wrapping writer, in whichever pieces: the output consists of the data in
lines of exactly `l` columns, each ended by a line feed, followed by the rest of less than `l` columns. -/
theorem C60_wrap {l : Nat} (hl : 0 < l) (ps : List Bytes) : ∃ (lines : List Bytes) (rest : Bytes),
    wrapWrites l 0 ps = (lines.map (· ++ [10#8])).flatten ++ rest ∧ lines.flatten ++ rest = ps.flatten ∧
    (∀ x ∈ lines, x.length = l) ∧ rest.length < l := by
  rw [wrapWrites_eq hl _ _ hl]
  exact wrapAt_lines hl _ _ (Nat.le_refl _)

/-- **C60.** The output of the wrapping writer depends on the concatenation of the data only. -/
theorem C60_wrap_independent {l : Nat} (hl : 0 < l) {ps qs : List Bytes} (h : ps.flatten = qs.flatten) :
    wrapWrites l 0 ps = wrapWrites l 0 qs := by
  rw [wrapWrites_eq hl _ _ hl, wrapWrites_eq hl _ _ hl, h]

/-- **C60.** Deleting the line feeds gives back the data, if the data has none. -/
theorem C60_wrap_data {l : Nat} (hl : 0 < l) {ps : List Bytes} (h : 10#8 ∉ ps.flatten) :
    (wrapWrites l 0 ps).filter (fun c => decide (c ≠ 10#8)) = ps.flatten := by
  rw [wrapWrites_eq hl _ _ hl, wrapAt_filter _ _ _ h]

/-- Cases: two ways of writing the same data, with lines of 3 columns. -/
example : lineWrites 3 3 [str "ab", str "", str "cdef"] = str "abc\ndef" ∧
    lineWrites 3 3 [str "abcdef"] = str "abc\ndef" ∧
    wrapWrites 3 0 [str "ab", str "", str "cdef", str "g"] = str "abc\ndef\ng" ∧
    wrapWrites 3 0 [str "abcdef"] = str "abc\ndef\n" := by decide

/-! ## C43 -/

/-- **C43.** The text of a BinaryString value (and of the hash of a SharedString value) decodes to the bytes of
the value; its lines have at most 72 columns, and its characters are those of base64. -/
theorem C43_value (p : Bytes) :
    b64Decode (b64Split p) = some p ∧
    (∃ lines : List Bytes, b64Split p = [10#8].intercalate lines ∧ ∀ l ∈ lines, l.length ≤ 72 ∧ 10#8 ∉ l) ∧
    ∀ c ∈ b64Split p, c = 10#8 ∨ (43 ≤ c.toNat ∧ c.toNat ≤ 122) := by
  refine ⟨b64Decode_split p, ?_, ?_⟩
  · obtain ⟨lines, h1, h2, _, h4⟩ := C60_split (s := 72) (by decide) (b64Writes p)
    refine ⟨lines, h1, fun l hl => ⟨(h4 l hl).2, ?_⟩⟩
    intro hm
    have : 10#8 ∈ lines.flatten := List.mem_flatten.2 ⟨l, hl, hm⟩
    rw [h2, b64Writes_flatten] at this
    exact b64Encode_no_lf p this
  · intro c hc
    rw [b64Split_eq] at hc
    rcases splitAt_bytes _ _ _ c hc with h | h
    · exact .inl h
    · have := b64Encode_bytes p c h
      exact .inr ⟨this.1, this.2.1⟩

/-- **C43.** The same for the contents in the list of shared strings. -/
theorem C43_shared (p : Bytes) :
    b64Decode (b64Wrap p) = some p ∧
    (∃ (lines : List Bytes) (rest : Bytes), b64Wrap p = (lines.map (· ++ [10#8])).flatten ++ rest ∧
      (∀ l ∈ lines, l.length = 72 ∧ 10#8 ∉ l) ∧ rest.length < 72 ∧ 10#8 ∉ rest) ∧
    ∀ c ∈ b64Wrap p, c = 10#8 ∨ (43 ≤ c.toNat ∧ c.toNat ≤ 122) := by
  refine ⟨b64Decode_wrap p, ?_, ?_⟩
  · obtain ⟨lines, rest, h1, h2, h3, h4⟩ := C60_wrap (l := 72) (by decide) (b64Writes p)
    rw [b64Writes_flatten] at h2
    have hno := b64Encode_no_lf p
    rw [← h2, List.mem_append, not_or] at hno
    exact ⟨lines, rest, h1, fun l hl => ⟨h3 l hl, fun hm => hno.1 (List.mem_flatten.2 ⟨l, hl, hm⟩)⟩, h4, hno.2⟩
  · intro c hc
    rw [b64Wrap_eq] at hc
    rcases wrapAt_bytes _ _ _ c hc with h | h
    · exact .inl h
    · have := b64Encode_bytes p c h
      exact .inr ⟨this.1, this.2.1⟩

/-- A case: 55 bytes take 76 characters, in two lines. -/
example : b64Split (List.replicate 55 255#8) = List.replicate 72 47#8 ++ [10#8] ++ str "/w==" ∧
    b64Wrap (List.replicate 54 255#8) = List.replicate 72 47#8 ++ [10#8] ∧
    b64Decode (str "//\r\n8=") = some [255#8, 255#8] ∧ b64Decode (str "//8") = none := by decide +kernel

end Props

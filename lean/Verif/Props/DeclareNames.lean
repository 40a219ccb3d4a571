import Verif.Declare.TypeNames
/-!
# C67: type names of declarations

`other` stands for what `strings.ToLower` does with strings that are not ASCII, `it` for the order of iteration over the
table.
-/
namespace Props
open Go Rbxfile

/-- Two bytes are the same letter, or the same byte. -/
def SameChar (a b : Byte) : Prop :=
  a = b ∨ (65 ≤ a.toNat ∧ a.toNat ≤ 90 ∧ b.toNat = a.toNat + 32) ∨ (65 ≤ b.toNat ∧ b.toNat ≤ 90 ∧ a.toNat = b.toNat + 32)

instance (a b : Byte) : Decidable (SameChar a b) := inferInstanceAs (Decidable (_ ∨ _))

/-- Two strings differ at most by the case of letters. -/
def SameText : Bytes → Bytes → Prop
  | [], [] => True
  | a :: s, b :: t => SameChar a b ∧ SameText s t
  | _, _ => False

theorem sameChar_iff (a b : Byte) : SameChar a b ↔ Declare.lowerByte a = Declare.lowerByte b := by
  have ha := a.isLt
  have hb := b.isLt
  unfold SameChar Declare.lowerByte
  constructor
  · rintro (rfl | h | h)
    · rfl
    · rw [if_pos ⟨h.1, h.2.1⟩, if_neg (by omega)]
      apply BitVec.eq_of_toNat_eq
      rw [BitVec.toNat_ofNat]
      omega
    · rw [if_pos (c := 65 ≤ b.toNat ∧ _) ⟨h.1, h.2.1⟩, if_neg (by omega)]
      apply BitVec.eq_of_toNat_eq
      rw [BitVec.toNat_ofNat]
      omega
  · intro h
    have h' := congrArg BitVec.toNat h
    by_cases ca : 65 ≤ a.toNat ∧ a.toNat ≤ 90 <;> by_cases cb : 65 ≤ b.toNat ∧ b.toNat ≤ 90
    · left
      apply BitVec.eq_of_toNat_eq
      rw [if_pos ca, if_pos cb, BitVec.toNat_ofNat, BitVec.toNat_ofNat] at h'
      omega
    · right; left
      rw [if_pos ca, if_neg cb, BitVec.toNat_ofNat] at h'
      omega
    · right; right
      rw [if_neg ca, if_pos cb, BitVec.toNat_ofNat] at h'
      omega
    · left
      rwa [if_neg ca, if_neg cb] at h

theorem sameText_iff : ∀ s t : Bytes, SameText s t ↔ s.map Declare.lowerByte = t.map Declare.lowerByte
  | [], [] => by simp [SameText]
  | [], _ :: _ => by simp [SameText]
  | _ :: _, [] => by simp [SameText]
  | a :: s, b :: t => by
    simp only [SameText, sameChar_iff, sameText_iff s t, List.map_cons, List.cons.injEq]

section
variable (other : Bytes → Bytes) (it it' : Iter)

/-- C67: the 30 types of declarations have the numbers and the names of the types of rbxfile; any other number is called
"Invalid". -/
theorem C67_names (t : Byte) :
    (1 ≤ t.toNat ∧ t.toNat ≤ 30 → Declare.typeString t = Rbxfile.typeString t) ∧
    (¬ (1 ≤ t.toNat ∧ t.toNat ≤ 30) → Declare.typeString t = str "Invalid") := by
  have : ∀ k : Fin 256, (1 ≤ k.val ∧ k.val ≤ 30 → Declare.typeString (BitVec.ofFin k) = Rbxfile.typeString (BitVec.ofFin k)) ∧
    (¬ (1 ≤ k.val ∧ k.val ≤ 30) → Declare.typeString (BitVec.ofFin k) = str "Invalid") := by decide +kernel
  exact this t.toFin

theorem lower_table (e : Byte × Bytes) (h : e ∈ Declare.typeStrings) :
    Declare.toLower other e.2 = e.2.map Declare.lowerByte := by
  have : ∀ e ∈ Declare.typeStrings, e.2.all (fun b => decide (b.toNat < 128)) = true := by decide +kernel
  rw [Declare.toLower, if_pos (this e h)]

theorem lower_inj (e : Byte × Bytes) (h : e ∈ Declare.typeStrings) (e' : Byte × Bytes) (h' : e' ∈ Declare.typeStrings)
    (he : e.2.map Declare.lowerByte = e'.2.map Declare.lowerByte) : e = e' := by
  have : ∀ e ∈ Declare.typeStrings, ∀ e' ∈ Declare.typeStrings,
    e.2.map Declare.lowerByte = e'.2.map Declare.lowerByte → e = e' := by decide +kernel
  exact this e h e' h' he

theorem typeFromString_of {s : Bytes} {e : Byte × Bytes} (h : e ∈ Declare.typeStrings)
    (hs : Declare.toLower other s = Declare.toLower other e.2) : Declare.typeFromString other it s = e.1 := by
  unfold Declare.typeFromString
  cases hf : (it.run [] Declare.typeStrings).find? fun e => Declare.toLower other s == Declare.toLower other e.2 with
  | none =>
    have := List.find?_eq_none.1 hf e ((it.perm _ _).mem_iff.2 h)
    simp [hs] at this
  | some e' =>
    have h1 : Declare.toLower other s = Declare.toLower other e'.2 := by simpa using List.find?_some hf
    have h2 := (it.perm _ _).mem_iff.1 (List.mem_of_find?_eq_some hf)
    rw [hs, lower_table other e h, lower_table other e' h2] at h1
    rw [lower_inj e h e' h2 h1]

/-- C67: the name of a type in any mixture of upper and lower case is read as the type. -/
theorem C67_any_case {t : Byte} (ht : 1 ≤ t.toNat ∧ t.toNat ≤ 30) {s : Bytes} (ha : ∀ b ∈ s, b.toNat < 128)
    (hs : SameText s (Declare.typeString t)) : Declare.typeFromString other it s = t := by
  rw [sameText_iff] at hs
  have hm : (t, Declare.typeString t) ∈ Declare.typeStrings := by
    have : ∀ k : Fin 256, (1 ≤ k.val ∧ k.val ≤ 30 →
      (BitVec.ofFin k, Declare.typeString (BitVec.ofFin k)) ∈ Declare.typeStrings) := by decide +kernel
    exact this t.toFin ht
  refine typeFromString_of other it hm ?_
  rw [lower_table other _ hm, ← hs, Declare.toLower, if_pos]
  simpa using ha

/-- C67: in particular the name itself is. -/
theorem C67_round_trip {t : Byte} (ht : 1 ≤ t.toNat ∧ t.toNat ≤ 30) :
    Declare.typeFromString other it (Declare.typeString t) = t := by
  refine C67_any_case other it ht ?_ ((sameText_iff _ _).2 rfl)
  have : ∀ k : Fin 256, ∀ b ∈ Declare.typeString (BitVec.ofFin k), b.toNat < 128 := by decide +kernel
  exact this t.toFin

/-- C67: a string that does not differ from a name only by case gives no type. -/
theorem C67_other_strings {s : Bytes} (ha : ∀ b ∈ s, b.toNat < 128)
    (hs : ∀ t : Byte, 1 ≤ t.toNat → t.toNat ≤ 30 → ¬ SameText s (Declare.typeString t)) :
    Declare.typeFromString other it s = 0 := by
  unfold Declare.typeFromString
  cases hf : (it.run [] Declare.typeStrings).find? fun e => Declare.toLower other s == Declare.toLower other e.2 with
  | none => rfl
  | some e =>
    exfalso
    have h1 : Declare.toLower other s = Declare.toLower other e.2 := by simpa using List.find?_some hf
    have h2 := (it.perm _ _).mem_iff.1 (List.mem_of_find?_eq_some hf)
    rw [lower_table other e h2, Declare.toLower, if_pos (by simpa using ha)] at h1
    have h3 : ∀ e ∈ Declare.typeStrings, 1 ≤ e.1.toNat ∧ e.1.toNat ≤ 30 ∧ Declare.typeString e.1 = e.2 := by decide +kernel
    obtain ⟨h4, h5, h6⟩ := h3 e h2
    exact hs e.1 h4 h5 ((sameText_iff _ _).2 (by rw [h6]; exact h1))

/-- C67: the order of iteration makes no difference. -/
theorem C67_order (s : Bytes) : Declare.typeFromString other it s = Declare.typeFromString other it' s := by
  cases hf : (it.run [] Declare.typeStrings).find? fun e => Declare.toLower other s == Declare.toLower other e.2 with
  | none =>
    have hf' : ((it'.run [] Declare.typeStrings).find? fun e => Declare.toLower other s == Declare.toLower other e.2) = none := by
      rw [List.find?_eq_none] at hf ⊢
      intro x hx
      exact hf x ((it.perm _ _).mem_iff.2 ((it'.perm _ _).mem_iff.1 hx))
    simp only [Declare.typeFromString, hf, hf']
  | some e =>
    have h1 : Declare.toLower other s = Declare.toLower other e.2 := by simpa using List.find?_some hf
    have h2 := (it.perm _ _).mem_iff.1 (List.mem_of_find?_eq_some hf)
    rw [typeFromString_of other it h2 h1, typeFromString_of other it' h2 h1]

end

example : Declare.typeFromString id Iter.rev (str "vEcToR3iNT16") = 21#8 := by decide +kernel
example : SameText (str "vEcToR3iNT16") (Declare.typeString 21#8) := by
  rw [sameText_iff]; decide +kernel
example : Declare.typeFromString id Iter.rev (str "Font") = 0 := by decide +kernel

end Props

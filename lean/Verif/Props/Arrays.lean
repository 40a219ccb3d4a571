import Verif.Rbxl.ArraysLemmas
import Verif.Props.Values
import Mathlib.Data.List.Forall2
/-!
# C05, C06: property arrays
-/
namespace Props
open Go Rbxl

theorem forall₂_canon : ∀ vs : List Val, List.Forall₂ SameStored vs (vs.map Val.canon)
  | [] => .nil
  | v :: vs => .cons (sameStored_canon v) (forall₂_canon vs)

/-- C05: a non-empty array of values of one type, encoded as a property array, decodes to the same
values; all bytes are consumed. `slack` is the spare capacity of the buffer, which may be
anything. -/
theorem C05_array_roundtrip (t : TypeID) (ht : t ≠ .optional) (vs : List Val) (hne : vs ≠ [])
    (h : ∀ v ∈ vs, v.type = t ∧ v.lenOk) :
    ∃ b, typeArrayToBytes (.plain t vs) = .ok b ∧
      ∀ slack, ∃ vs' b', typeArrayFrom slack vs.length b = .ok (.plain t vs', b.length, b') ∧
        List.Forall₂ SameStored vs vs' := by
  obtain ⟨b, h1, _, h2⟩ := typeArray_roundtrip (.plain t vs) vs.length ⟨ht, hne, rfl, h⟩
  refine ⟨b, h1, fun slack => ?_⟩
  obtain ⟨b', h3⟩ := h2 slack
  exact ⟨_, b', h3, forall₂_canon vs⟩

/-- C05: reference arrays round-trip, including when the differences wrap around. -/
theorem C05_refs_roundtrip (refs : List (BitVec 32)) (hne : refs ≠ []) :
    ∃ b, refArrayToBytes refs = .ok b ∧ b.length = 4 * refs.length ∧
      refArrayFrom b refs.length = .ok refs := refs_roundtrip refs hne

/-- C05, excluded corner: encoding an empty array of an interleaved type panics. -/
theorem C05_empty_interleaved_panics (t : TypeID) (h : interleaved t = true) :
    typeArrayToBytes (.plain t []) = .panic := by
  cases t <;> simp [interleaved] at h <;> rfl

example : typeArrayToBytes (.plain .int [.int 1, .int (-1)]) =
    .ok [3, 0, 0, 0, 0, 0, 0, 2, 1] := by decide
/-- Wrapping differences: the least and the greatest id next to each other. -/
example : ∃ b, refArrayToBytes [0x80000000#32, 0x7fffffff#32, 5#32] = .ok b ∧ b.length = 12 ∧
    refArrayFrom b 3 = .ok [0x80000000#32, 0x7fffffff#32, 5#32] :=
  C05_refs_roundtrip _ (by simp)

/-! ## C06 -/

/-- C06 for the element types that are not interleaved (CFrame, which is the one Roblox uses,
among them): an array of optionals decodes to the same values and presence flags.
Missing with respect to the full property: interleaved element types, for which it is false
(`C06_interleaved_fails`). -/
theorem C06_optional_roundtrip_partial (t : TypeID) (ht : t ≠ .optional)
    (hi : interleaved t = false)
    (vs : List Val) (present : List Bool) (hne : vs ≠ []) (hp : present.length = vs.length)
    (h : ∀ v ∈ vs, v.type = t ∧ v.lenOk) :
    ∃ b, typeArrayToBytes (.optional (.plain t vs) present) = .ok b ∧
      ∀ slack, ∃ vs' b', typeArrayFrom slack vs.length b =
        .ok (.optional (.plain t vs') present, b.length, b') ∧ List.Forall₂ SameStored vs vs' := by
  obtain ⟨b, h1, _, h2⟩ := typeArray_roundtrip (.optional (.plain t vs) present) vs.length
    ⟨ht, hi, hne, rfl, hp, h⟩
  refine ⟨b, h1, fun slack => ?_⟩
  obtain ⟨b', h3⟩ := h2 slack
  exact ⟨_, b', h3, forall₂_canon vs⟩

example : typeArrayToBytes (.optional (.plain .bool [.bool true, .bool false]) [true, false]) =
    .ok [0x1E, 2, 1, 0, 2, 1, 0] := by decide
example : interleaved .cframe = false ∧ interleaved .string = false := by decide

/-- C06 fails for interleaved element types: whenever the element size does not divide one more
than the number of elements, decoding what was just encoded reports an error. -/
theorem C06_interleaved_fails (t : TypeID) (hi : interleaved t = true)
    (vs : List Val) (present : List Bool) (hne : vs ≠ []) (hp : present.length = vs.length)
    (h : ∀ v ∈ vs, v.type = t ∧ v.lenOk) (hd : ∀ k, t.size = some k → ¬ k ∣ vs.length + 1) :
    ∃ b, typeArrayToBytes (.optional (.plain t vs) present) = .ok b ∧
      ∀ slack, (typeArrayFrom slack vs.length b).isErr := by
  have ht : t ≠ .optional := by rintro rfl; simp [interleaved] at hi
  obtain ⟨b, h1, -⟩ := plain_roundtrip t ht vs hne h
  have hb : plainToBytes .bool (present.map Val.bool) =
      .ok ((present.map Val.bool).flatMap Val.bytes) := rfl
  refine ⟨TypeID.optional.toByte :: t.toByte :: b ++
    TypeID.bool.toByte :: (present.map Val.bool).flatMap Val.bytes,
    by simp [typeArrayToBytes, Arr.toBytes, Arr.type, h1, hb], fun slack => ?_⟩
  have hv : ∀ t : TypeID, TypeID.validByte t.toByte = true := fun t => (C56_ids _).1.2 ⟨t, rfl⟩
  have ho : ∀ t : TypeID, TypeID.ofByte t.toByte = some t := fun t => (C56_ids _).2.1 t rfl
  obtain ⟨k, hk, hk0⟩ : ∃ k, t.size = some k ∧ 0 < k := by
    cases t <;> simp [interleaved] at hi <;> simp [TypeID.size]
  have hlen : ((present.map Val.bool).flatMap Val.bytes).length = present.length := by
    rw [flatMap_bytes_length (t := .bool) (k := 1) rfl]
    · simp
    · intro v hv
      obtain ⟨x, _, rfl⟩ := List.mem_map.1 hv
      exact ⟨rfl, trivial⟩
  have hbl : k ∣ b.length := by
    simp only [plainToBytes, hi, if_true, hk] at h1
    obtain ⟨r, hr, hr2⟩ := Res.bind_eq_ok.1 h1
    have : r.length % k = 0 := by
      by_cases e : r.length % k = 0
      · exact e
      · simp [interleave, Nat.ne_of_gt hk0, e] at hr2
    have hrl : 0 < r.length := by
      rcases Nat.eq_zero_or_pos r.length with e | e
      · have := List.eq_nil_of_length_eq_zero e
        subst this
        simp [interleave, Nat.ne_of_gt hk0, transpose] at hr2
      · exact e
    have hdv := Nat.dvd_of_mod_eq_zero this
    have hkc : r.length = r.length / k * k := (Nat.div_mul_cancel hdv).symm
    obtain ⟨out, g1, g2, -⟩ := interleave_spec r k (r.length / k) hk0
      (Nat.div_pos (Nat.le_of_dvd hrl hdv) hk0) hkc
    rw [hr2] at g1
    cases g1
    rw [g2]; exact hdv
  have hbad : ¬ k ∣ (b ++ TypeID.bool.toByte :: (present.map Val.bool).flatMap Val.bytes).length := by
    rw [List.length_append, List.length_cons, hlen, hp]
    intro hc
    exact hd k hk ((Nat.dvd_add_right hbl).1 hc)
  rw [List.cons_append, List.cons_append, typeArrayFrom]
  simp only [hv, Bool.true_eq_false, if_false, ho]
  have inner : (typeArrayFrom slack vs.length
      (t.toByte :: (b ++ TypeID.bool.toByte :: (present.map Val.bool).flatMap Val.bytes))).isErr := by
    rw [typeArrayFrom]
    simp only [hv, Bool.true_eq_false, if_false, ho]
    · have hm : (b ++ TypeID.bool.toByte :: (present.map Val.bool).flatMap Val.bytes).length % k
          ≠ 0 := fun e => hbad (Nat.dvd_of_mod_eq_zero e)
      unfold plainFrom
      simp only [hi, if_true, hk, deinterleave, if_neg (Nat.ne_of_gt hk0), if_pos hm, Res.err_bind,
        Res.isErr_err]
  cases hr : typeArrayFrom slack vs.length
      (t.toByte :: (b ++ TypeID.bool.toByte :: (present.map Val.bool).flatMap Val.bytes)) with
  | ok a => rw [hr] at inner; exact absurd inner (by simp)
  | err e => simp
  | panic => rw [hr] at inner; exact absurd inner (by simp)

/-- A concrete case: one optional `Int`. -/
example : (typeArrayFrom 0 1 [0x1E, 3, 0, 0, 0, 2, 2, 1]).isErr := by
  obtain ⟨b, h1, h2⟩ := C06_interleaved_fails .int rfl [.int 1] [true] (by simp) rfl
    (by simp [Val.type, Val.lenOk]) (by simp [TypeID.size])
  have : b = [0x1E, 3, 0, 0, 0, 2, 2, 1] := by
    have e : typeArrayToBytes (.optional (.plain .int [.int 1]) [true]) =
      .ok [0x1E, 3, 0, 0, 0, 2, 2, 1] := by decide
    rw [h1] at e; cases e; rfl
  subst this
  exact h2 0

theorem elemsFrom_bool : ∀ {i n : Nat} {b : Bytes} {vs : List Val} {m : Nat},
    elemsFrom .bool i n b = .ok (vs, m) →
    m = n ∧ n ≤ b.length ∧ vs = (b.take n).map fun c => Val.bool (c != 0#8)
  | i, 0, b, vs, m, h => by
    simp only [elemsFrom, Res.ok.injEq, Prod.mk.injEq] at h
    obtain ⟨rfl, rfl⟩ := h
    simp
  | i, n + 1, [], vs, m, h => by simp [elemsFrom, Val.fromBytes, constFrom, Res.mapErr] at h
  | i, n + 1, c :: b, vs, m, h => by
    have e : Val.fromBytes .bool (c :: b) = .ok (.bool (c != 0#8), 1) := by
      simp [Val.fromBytes, constFrom, rdU8, readU8]
    simp only [elemsFrom, e, Res.mapErr, Res.ok_bind] at h
    obtain ⟨⟨vs', m'⟩, h1, h⟩ := Res.bind_eq_ok.1 h
    simp only [Res.pure_eq, Res.ok.injEq, Prod.mk.injEq] at h
    obtain ⟨rfl, rfl⟩ := h
    obtain ⟨rfl, h2, rfl⟩ := elemsFrom_bool h1
    simp only [List.drop_succ_cons, List.drop_zero] at h2 ⊢
    refine ⟨by omega, by simpa using h2, by simp⟩

/-- C06: an optional array is accepted only if its flags are announced by the type byte of Bool and
there are as many of them as requested; each flag is one byte and means present unless it is 0. `buf`
is the input as left by deinterleaving in place. -/
theorem C06_flags (slack n : Nat) (rest : Bytes) (values : Arr) (present : List Bool) (k : Nat)
    (buf : Bytes)
    (h : typeArrayFrom slack n (0x1E#8 :: rest) = .ok (.optional values present, k, buf)) :
    n + 2 ≤ k ∧ k ≤ buf.length ∧ buf[k - n - 1]? = some 2#8 ∧
    present = ((buf.drop (k - n)).take n).map fun c => c != 0#8 := by
  rw [typeArrayFrom] at h
  have h1 : TypeID.validByte 0x1E#8 = true := by decide
  have h2 : TypeID.ofByte 0x1E#8 = some .optional := by decide
  simp only [h1, h2, Bool.true_eq_false, if_false] at h
  obtain ⟨⟨vals, nn, rest'⟩, h3, h⟩ := Res.bind_eq_ok.1 h
  obtain ⟨⟨pr, mm⟩, h4, h⟩ := Res.bind_eq_ok.1 h
  simp only [Res.pure_eq, Res.ok.injEq, Prod.mk.injEq, Arr.optional.injEq] at h
  obtain ⟨⟨rfl, rfl⟩, rfl, rfl⟩ := h
  cases hd : rest'.drop nn with
  | nil => simp [hd, presentFrom] at h4
  | cons tb b =>
    rw [hd] at h4
    simp only [presentFrom] at h4
    split at h4
    · cases h4
    split at h4
    · cases h4
    rename_i hv ht
    obtain ⟨⟨vs, m⟩, h5, h4⟩ := Res.bind_eq_ok.1 h4
    simp only [Res.pure_eq, Res.ok.injEq, Prod.mk.injEq] at h4
    obtain ⟨rfl, rfl⟩ := h4
    obtain ⟨rfl, hl, rfl⟩ := elemsFrom_bool h5
    have hlen : rest'.length = nn + (b.length + 1) := by
      have hx := congrArg List.length hd
      rw [List.length_drop, List.length_cons] at hx
      omega
    have hg : rest'[nn]? = some tb := by
      have := congrArg (fun (l : Bytes) => l[0]?) hd
      simpa using this
    refine ⟨by omega, by simp only [List.length_cons]; omega, ?_, ?_⟩
    · rw [show 1 + nn + (1 + m) - m - 1 = nn + 1 by omega, List.getElem?_cons_succ, hg]
      rw [Classical.not_not] at ht
      rw [ht]; rfl
    · rw [show 1 + nn + (1 + m) - m = nn + 1 + 1 by omega, List.drop_succ_cons]
      have hb : rest'.drop (nn + 1) = b := by
        rw [← List.drop_drop, hd]; rfl
      rw [hb, List.map_map]
      rfl

example : typeArrayFrom 0 2 [0x1E#8, 2#8, 1#8, 0#8, 2#8, 1#8, 0#8] =
    .ok (.optional (.plain .bool [.bool true, .bool false]) [true, false], 7,
      [0x1E#8, 2#8, 1#8, 0#8, 2#8, 1#8, 0#8]) := by decide

end Props

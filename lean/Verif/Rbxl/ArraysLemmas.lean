import Verif.Rbxl.ValuesLemmas
import Verif.Rbxl.Arrays
/-!
# Round trips of property arrays
-/
namespace Rbxl
open Go

/-- All elements have the type of the array. -/
def OfType (t : TypeID) (vs : List Val) : Prop := ∀ v ∈ vs, v.type = t ∧ v.lenOk

theorem OfType.tail {t : TypeID} {v : Val} {vs : List Val} (h : OfType t (v :: vs)) :
    OfType t vs := fun w hw => h w (List.mem_cons_of_mem _ hw)

theorem Val.bytes_length_of_size (v : Val) (k : Nat) (h : v.type.size = some k) :
    v.bytes.length = k := by
  rw [v.bytes_length]
  cases v <;> simp [Val.type, TypeID.size] at h <;> simp [Val.bytesLen, h]

theorem flatMap_bytes_length {t : TypeID} {k : Nat} (hk : t.size = some k) :
    ∀ vs : List Val, OfType t vs → (vs.flatMap Val.bytes).length = vs.length * k
  | [], _ => by simp
  | v :: vs, h => by
    have hv := (h v (by simp)).1
    simp only [List.flatMap_cons, List.length_append, List.length_cons,
      flatMap_bytes_length hk vs h.tail, v.bytes_length_of_size k (by rw [hv]; exact hk)]
    rw [Nat.add_mul]; omega

theorem elemsFrom_app (t : TypeID) (r : Bytes) : ∀ (vs : List Val) (i : Nat), OfType t vs →
    elemsFrom t i vs.length (vs.flatMap Val.bytes ++ r) =
      .ok (vs.map Val.canon, (vs.flatMap Val.bytes).length)
  | [], _, _ => rfl
  | v :: vs, i, h => by
    have hv := h v (by simp)
    simp only [List.flatMap_cons, List.length_cons, elemsFrom, List.append_assoc]
    rw [← hv.1, Val.fromBytes_bytes v _ hv.2]
    simp only [Res.mapErr_ok, Res.ok_bind, List.drop_left]
    rw [hv.1, elemsFrom_app t r vs (i + 1) h.tail]
    simp

theorem refsFrom_app (r : Bytes) : ∀ (ns : List (BitVec 32)) (prev : BitVec 32) (i : Nat),
    refsFrom i ns.length prev ((refDeltas prev ns).flatMap (fun d => (Val.reference d).bytes) ++ r)
      = .ok (ns.map Val.reference, 4 * ns.length)
  | [], _, _ => rfl
  | n :: ns, prev, i => by
    simp only [refDeltas, List.flatMap_cons, List.length_cons, refsFrom, List.append_assoc]
    rw [show TypeID.reference = (Val.reference (n - prev)).type from rfl,
      Val.fromBytes_bytes (.reference (n - prev)) _ trivial]
    simp only [Res.mapErr_ok, Res.ok_bind, List.drop_left, Val.canon, Val.refNum,
      BitVec.sub_add_cancel]
    rw [refsFrom_app r ns n (i + 1)]
    simp [Val.bytes]
    omega

theorem refsBytes_eq (ns : List (BitVec 32)) :
    refsBytes ns = (refDeltas 0 ns).flatMap fun d => (Val.reference d).bytes := by
  cases ns <;> simp [refsBytes, refDeltas]

theorem refsBytes_length : ∀ (prev : BitVec 32) (ns : List (BitVec 32)),
    ((refDeltas prev ns).flatMap fun d => (Val.reference d).bytes).length = ns.length * 4
  | _, [] => rfl
  | prev, n :: ns => by
    have := refsBytes_length n ns
    simp only [refDeltas, List.flatMap_cons, List.length_append, List.length_cons] at this ⊢
    rw [this]; simp only [Val.bytes, be32_length]; omega

theorem map_refNum_reference : ∀ vs : List Val, OfType .reference vs →
    (vs.map Val.refNum).map Val.reference = vs
  | [], _ => rfl
  | v :: vs, h => by
    have hv := (h v (by simp)).1
    simp only [List.map_cons, map_refNum_reference vs h.tail, List.cons.injEq, and_true]
    cases v <;> simp [Val.type] at hv; rfl

theorem map_canon_reference : ∀ vs : List Val, OfType .reference vs →
    vs.map Val.canon = vs
  | [], _ => rfl
  | v :: vs, h => by
    have hv := (h v (by simp)).1
    simp only [List.map_cons, map_canon_reference vs h.tail, List.cons.injEq, and_true]
    cases v <;> simp [Val.type] at hv; rfl

/-- Special id and rotation as decoded. -/
def Val.headOf : Val → Byte × Rot
  | .cframe sp r _ => (sp, if sp = 0#8 then r else Rot.zero)
  | _ => (0, Rot.zero)

def Val.quatHeadOf : Val → Byte × F32 × F32 × F32 × F32
  | .cframeQuat sp x y z w _ => (sp, if sp = 0#8 then (x, y, z, w) else (0, 0, 0, 0))
  | _ => (0, 0, 0, 0, 0)

theorem cframeHeads_app (tail : Bytes) (ht : 12 ≤ tail.length) : ∀ (vs : List Val) (i : Nat),
    OfType .cframe vs →
    cframeHeads i vs.length (vs.flatMap Val.cframeHead ++ tail) =
      .ok (vs.map Val.headOf, tail, (vs.flatMap Val.cframeHead).length)
  | [], _, _ => rfl
  | v :: vs, i, h => by
    have hv := (h v (by simp)).1
    cases v <;> simp [Val.type] at hv
    case cframe sp r p =>
    simp only [List.flatMap_cons, List.length_cons, cframeHeads, List.append_assoc, Val.cframeHead,
      List.cons_append]
    by_cases hs : sp = 0#8
    · subst hs
      rw [checkLengthCond_ok (by simp [condSizeCFrame]; omega)]
      simp only [Res.mapErr_ok, Res.ok_bind, if_true, rdRot_app, Res.pure_eq]
      rw [cframeHeads_app tail ht vs (i + 1) h.tail]
      simp [Val.headOf]; omega
    · rw [checkLengthCond_ok (by simp [condSizeCFrame, hs]; omega)]
      simp only [Res.mapErr_ok, Res.ok_bind, if_neg hs, Res.pure_eq, List.nil_append]
      rw [cframeHeads_app tail ht vs (i + 1) h.tail]
      simp [Val.headOf, hs]; omega

theorem cframeQuatHeads_app (tail : Bytes) (ht : 12 ≤ tail.length) : ∀ (vs : List Val) (i : Nat),
    OfType .cframeQuat vs →
    cframeQuatHeads i vs.length (vs.flatMap Val.cframeHead ++ tail) =
      .ok (vs.map Val.quatHeadOf, tail, (vs.flatMap Val.cframeHead).length)
  | [], _, _ => rfl
  | v :: vs, i, h => by
    have hv := (h v (by simp)).1
    cases v <;> simp [Val.type] at hv
    case cframeQuat sp x y z w p =>
    simp only [List.flatMap_cons, List.length_cons, cframeQuatHeads, List.append_assoc,
      Val.cframeHead, List.cons_append]
    by_cases hs : sp = 0#8
    · subst hs
      rw [checkLengthCond_ok (by simp [condSizeCFrameQuat]; omega)]
      simp only [Res.mapErr_ok, Res.ok_bind, if_true, rdQuat_app, Res.pure_eq]
      rw [cframeQuatHeads_app tail ht vs (i + 1) h.tail]
      simp [Val.quatHeadOf]; omega
    · rw [checkLengthCond_ok (by simp [condSizeCFrameQuat, hs]; omega)]
      simp only [Res.mapErr_ok, Res.ok_bind, if_neg hs, Res.pure_eq, List.nil_append]
      rw [cframeQuatHeads_app tail ht vs (i + 1) h.tail]
      simp [Val.quatHeadOf, hs]; omega

theorem positionsFrom_app (r : Bytes) : ∀ (ps : List Vec3) (i : Nat),
    positionsFrom i ps.length (ps.flatMap Vec3.bytes ++ r) = .ok (ps, ps.length * 12)
  | [], _ => rfl
  | p :: ps, i => by
    simp only [List.flatMap_cons, List.length_cons, positionsFrom, List.append_assoc]
    rw [vec3From_app]
    simp only [Res.mapErr_ok, Res.ok_bind]
    rw [show 12 = p.bytes.length from rfl, List.drop_left, positionsFrom_app r ps (i + 1)]
    simp; omega

theorem vec3s_length (ps : List Vec3) : (ps.flatMap Vec3.bytes).length = ps.length * 12 := by
  rw [flatMap_length_const (k := 12) (fun _ => rfl)]; omega

theorem zip_cframe : ∀ vs : List Val, OfType .cframe vs →
    ((vs.map Val.headOf).zip (vs.map Val.cframePos)).map
      (fun x => Val.cframe x.1.1 x.1.2 x.2) = vs.map Val.canon
  | [], _ => rfl
  | v :: vs, h => by
    have hv := (h v (by simp)).1
    simp only [List.map_cons, List.zip_cons_cons, zip_cframe vs h.tail, List.cons.injEq, and_true]
    cases v <;> simp [Val.type] at hv
    simp only [Val.headOf, Val.cframePos, Val.canon]
    split <;> rfl

theorem zip_cframeQuat : ∀ vs : List Val, OfType .cframeQuat vs →
    ((vs.map Val.quatHeadOf).zip (vs.map Val.cframePos)).map
      (fun x => Val.cframeQuat x.1.1 x.1.2.1 x.1.2.2.1 x.1.2.2.2.1 x.1.2.2.2.2 x.2) =
      vs.map Val.canon
  | [], _ => rfl
  | v :: vs, h => by
    have hv := (h v (by simp)).1
    simp only [List.map_cons, List.zip_cons_cons, zip_cframeQuat vs h.tail, List.cons.injEq,
      and_true]
    cases v <;> simp [Val.type] at hv
    simp only [Val.quatHeadOf, Val.cframePos, Val.canon]
    split <;> rfl

/-- The position part of a CFrame array, interleaved. -/
theorem cframesBytes_ok (vs : List Val) (hne : vs ≠ []) : ∃ q,
    cframesBytes vs = .ok (vs.flatMap Val.cframeHead ++ q) ∧ q.length = vs.length * 12 ∧
    ∀ slack r, deinterleavePrefix slack (q ++ r) vs.length =
      .ok ((vs.map Val.cframePos).flatMap Vec3.bytes ++ r) := by
  have hl : (vs.flatMap fun v => v.cframePos.bytes).length = vs.length * 12 := by
    rw [flatMap_length_const (k := 12) (fun _ => rfl)]; omega
  have he : (vs.map Val.cframePos).flatMap Vec3.bytes = vs.flatMap fun v => v.cframePos.bytes := by
    rw [List.flatMap_map]
  obtain ⟨q, h1, h2, h3⟩ := deinterleave_interleave (vs.flatMap fun v => v.cframePos.bytes) 12
    vs.length (by decide) (List.length_pos_iff.2 hne) hl
  refine ⟨q, ?_, by omega, ?_⟩
  · simp [cframesBytes, interleaveIgnoringError, h1]
  · intro slack r
    have hq : q.length = vs.length * 12 := by omega
    rw [deinterleavePrefix, if_pos (by simp; omega), ← hq, List.take_left, List.drop_left, h3]
    simp [he]

/-- Encoding a non-empty array and decoding it, possibly followed by other bytes when the type is
not interleaved. -/
theorem plain_roundtrip (t : TypeID) (ht : t ≠ .optional) (vs : List Val) (hne : vs ≠ [])
    (h : OfType t vs) : ∃ b, plainToBytes t vs = .ok b ∧
    ∀ slack r, (interleaved t = false ∨ r = []) →
      ∃ b', plainFrom slack t vs.length (b ++ r) = .ok (vs.map Val.canon, b.length, b') ∧
        b'.drop b.length = r := by
  have hpos : 0 < vs.length := List.length_pos_iff.2 hne
  by_cases hcf : t = .cframe
  · subst hcf
    obtain ⟨q, h1, h2, h3⟩ := cframesBytes_ok vs hne
    refine ⟨vs.flatMap Val.cframeHead ++ q, by simp [plainToBytes, plainBytes, interleaved, h1],
      fun slack r _ => ?_⟩
    have e := positionsFrom_app r (vs.map Val.cframePos) 0
    simp only [List.length_map] at e
    simp only [plainFrom, interleaved, Bool.false_eq_true, if_false, Res.pure_eq, Res.ok_bind,
      List.append_assoc]
    rw [cframeHeads_app _ (by simp; omega) vs 0 h]
    simp only [Res.ok_bind]
    rw [h3]
    simp only [Res.ok_bind]
    rw [e]
    simp only [Res.ok_bind, zip_cframe vs h, Res.ok.injEq, Prod.mk.injEq, true_and,
      List.length_append, h2, List.take_left]
    refine ⟨_, rfl, ?_⟩
    have e2 := vec3s_length (vs.map Val.cframePos)
    rw [List.length_map] at e2
    rw [← List.append_assoc, List.drop_left' (by rw [List.length_append, e2])]
  by_cases hcq : t = .cframeQuat
  · subst hcq
    obtain ⟨q, h1, h2, h3⟩ := cframesBytes_ok vs hne
    refine ⟨vs.flatMap Val.cframeHead ++ q, by simp [plainToBytes, plainBytes, interleaved, h1],
      fun slack r _ => ?_⟩
    have e := positionsFrom_app r (vs.map Val.cframePos) 0
    simp only [List.length_map] at e
    simp only [plainFrom, interleaved, Bool.false_eq_true, if_false, Res.pure_eq, Res.ok_bind,
      List.append_assoc]
    rw [cframeQuatHeads_app _ (by simp; omega) vs 0 h]
    simp only [Res.ok_bind]
    rw [h3]
    simp only [Res.ok_bind]
    rw [e]
    simp only [Res.ok_bind, zip_cframeQuat vs h, Res.ok.injEq, Prod.mk.injEq, true_and,
      List.length_append, h2, List.take_left]
    refine ⟨_, rfl, ?_⟩
    have e2 := vec3s_length (vs.map Val.cframePos)
    rw [List.length_map] at e2
    rw [← List.append_assoc, List.drop_left' (by rw [List.length_append, e2])]
  by_cases hrf : t = .reference
  · subst hrf
    have hl : (refsBytes (vs.map Val.refNum)).length = vs.length * 4 := by
      rw [refsBytes_eq, refsBytes_length]; simp
    obtain ⟨q, h1, h2, h3⟩ := deinterleave_interleave (refsBytes (vs.map Val.refNum)) 4
      vs.length (by decide) hpos hl
    refine ⟨q, by simp [plainToBytes, plainBytes, interleaved, TypeID.size, h1], ?_⟩
    intro slack r hr
    have hr : r = [] := by simpa [interleaved] using hr
    subst hr
    have e := refsFrom_app [] (vs.map Val.refNum) 0 0
    simp only [List.length_map, List.append_nil, map_refNum_reference vs h] at e
    simp only [plainFrom, interleaved, if_true, TypeID.size, List.append_nil, h3, Res.ok_bind]
    rw [refsBytes_eq, e]
    simp only [Res.ok_bind, Res.pure_eq, map_canon_reference vs h, Res.ok.injEq, Prod.mk.injEq,
      true_and]
    refine ⟨_, ⟨by omega, rfl⟩, ?_⟩
    apply List.drop_eq_nil_of_le
    rw [refsBytes_length]; simp; omega
  · have hpb : plainBytes t vs = .ok (vs.flatMap Val.bytes) := by
      cases t <;> simp_all [plainBytes]
    have hpf : ∀ slack n b, plainFrom slack t n b = (do
        let b ← (if interleaved t then
            match t.size with
            | none => .panic
            | some size => deinterleave b size
          else pure b : Res Bytes)
        let (vs, m) ← elemsFrom t 0 n b
        pure (vs, m, b)) := by
      intro slack n b
      cases t <;> first | rfl | simp_all
    cases hi : interleaved t
    · refine ⟨vs.flatMap Val.bytes, by simp [plainToBytes, hpb, hi], fun slack r _ => ?_⟩
      simp only [hpf, hi, Bool.false_eq_true, if_false, Res.pure_eq, Res.ok_bind]
      rw [elemsFrom_app t r vs 0 h]
      exact ⟨_, rfl, by simp⟩
    · obtain ⟨k, hk, hk0⟩ : ∃ k, t.size = some k ∧ 0 < k := by
        cases t <;> simp [interleaved] at hi <;> simp [TypeID.size]
      have hl := flatMap_bytes_length hk vs h
      obtain ⟨q, h1, h2, h3⟩ := deinterleave_interleave (vs.flatMap Val.bytes) k
        vs.length hk0 hpos hl
      refine ⟨q, by simp [plainToBytes, hpb, hi, hk, h1], fun slack r hr => ?_⟩
      have hr : r = [] := by simpa using hr
      subst hr
      have e := elemsFrom_app t [] vs 0 h
      simp only [List.append_nil] at e
      simp only [hpf, hi, if_true, hk, List.append_nil, h3, Res.ok_bind, e, Res.pure_eq]
      exact ⟨_, by rw [h2], by simp [h2]⟩

theorem bools_roundtrip (present : List Bool) (r : Bytes) (i : Nat) :
    elemsFrom .bool i present.length ((present.map Val.bool).flatMap Val.bytes ++ r) =
      .ok (present.map Val.bool, present.length) := by
  have h : OfType .bool (present.map Val.bool) := by
    intro v hv
    obtain ⟨b, _, rfl⟩ := List.mem_map.1 hv
    exact ⟨rfl, trivial⟩
  have := elemsFrom_app .bool r (present.map Val.bool) i h
  rw [List.length_map, flatMap_bytes_length (k := 1) rfl _ h] at this
  rw [this]
  simp [Val.canon, Function.comp_def]


theorem TypeID.mem_all (t : TypeID) : t ∈ TypeID.all := by cases t <;> decide

theorem TypeID.ofByte_toByte (t : TypeID) : TypeID.ofByte t.toByte = some t := by
  have h1 : ∀ t ∈ TypeID.all, TypeID.ofByte t.toByte = some t := by decide
  exact h1 t t.mem_all

theorem TypeID.validByte_toByte (t : TypeID) : TypeID.validByte t.toByte = true := by
  have h2 : ∀ t ∈ TypeID.all, TypeID.validByte t.toByte = true := by decide
  exact h2 t t.mem_all

/-- The array with the fields that are not stored set to zero. -/
def Arr.canon : Arr → Arr
  | .plain t vs => .plain t (vs.map Val.canon)
  | .optNil p => .optNil p
  | .optional a p => .optional a.canon p

/-- The arrays that survive: non-empty, all elements of the array's type and not too long; for
optionals, an element type that is not interleaved. `n` is the number of elements. -/
def Arr.Good (n : Nat) : Arr → Prop
  | .plain t vs => t ≠ .optional ∧ vs ≠ [] ∧ vs.length = n ∧ OfType t vs
  | .optional (.plain t vs) present => t ≠ .optional ∧ interleaved t = false ∧ vs ≠ [] ∧
      vs.length = n ∧ present.length = n ∧ OfType t vs
  | _ => False

theorem present_length (present : List Bool) :
    ((present.map Val.bool).flatMap Val.bytes).length = present.length := by
  rw [flatMap_bytes_length (t := .bool) (k := 1) rfl]
  · simp
  · intro v hv
    obtain ⟨x, _, rfl⟩ := List.mem_map.1 hv
    exact ⟨rfl, trivial⟩

theorem typeArray_roundtrip (a : Arr) (n : Nat) (h : a.Good n) :
    ∃ b, typeArrayToBytes a = .ok b ∧ b ≠ [] ∧
      ∀ slack, ∃ b', typeArrayFrom slack n b = .ok (a.canon, b.length, b') := by
  match a, h with
  | .plain t vs, ⟨ht, hne, hn, hty⟩ =>
    subst hn
    obtain ⟨b, h1, h2⟩ := plain_roundtrip t ht vs hne hty
    refine ⟨t.toByte :: b, by simp [typeArrayToBytes, Arr.toBytes, Arr.type, h1], by simp,
      fun slack => ?_⟩
    obtain ⟨b', h3, _⟩ := h2 slack [] (.inr rfl)
    rw [List.append_nil] at h3
    refine ⟨t.toByte :: b', ?_⟩
    rw [typeArrayFrom]
    simp only [t.validByte_toByte, Bool.true_eq_false, if_false, t.ofByte_toByte]
    simp [h3, Arr.canon]; omega
  | .optional (.plain t vs) present, ⟨ht, hi, hne, hn, hp, hty⟩ =>
    subst hn
    obtain ⟨b, h1, h2⟩ := plain_roundtrip t ht vs hne hty
    have hb : plainToBytes .bool (present.map Val.bool) =
        .ok ((present.map Val.bool).flatMap Val.bytes) := rfl
    refine ⟨TypeID.optional.toByte :: t.toByte :: b ++
      TypeID.bool.toByte :: (present.map Val.bool).flatMap Val.bytes,
      by simp [typeArrayToBytes, Arr.toBytes, Arr.type, h1, hb], by simp, fun slack => ?_⟩
    obtain ⟨b', h3, h4⟩ := h2 slack
      (TypeID.bool.toByte :: (present.map Val.bool).flatMap Val.bytes) (.inl hi)
    have hv := TypeID.validByte_toByte
    have ho := TypeID.ofByte_toByte
    have inner : typeArrayFrom slack vs.length
        (t.toByte :: (b ++ TypeID.bool.toByte :: (present.map Val.bool).flatMap Val.bytes)) =
        .ok (.plain t (vs.map Val.canon), 1 + b.length, t.toByte :: b') := by
      rw [typeArrayFrom]
      simp only [hv, Bool.true_eq_false, if_false, ho]
      simp [h3]
    have pres : presentFrom vs.length (TypeID.bool.toByte ::
        (present.map Val.bool).flatMap Val.bytes) = .ok (present, 1 + present.length) := by
      have e := bools_roundtrip present [] 0
      rw [List.append_nil, hp] at e
      simp [presentFrom, hv, e, hp, Function.comp_def]
    refine ⟨TypeID.optional.toByte :: t.toByte :: b', ?_⟩
    rw [List.cons_append, List.cons_append, typeArrayFrom]
    simp only [hv, Bool.true_eq_false, if_false, ho, inner, Res.ok_bind]
    rw [Nat.add_comm 1 b.length, List.drop_succ_cons, h4, pres]
    simp only [Res.ok_bind, Res.pure_eq, Res.ok.injEq, Prod.mk.injEq, and_true,
      List.length_cons, List.length_append, present_length, Arr.canon, true_and]
    omega
  | .optNil _, h => exact h.elim
  | .optional (.optNil _) _, h => exact h.elim
  | .optional (.optional _ _) _, h => exact h.elim

theorem refs_roundtrip (refs : List (BitVec 32)) (hne : refs ≠ []) :
    ∃ b, refArrayToBytes refs = .ok b ∧ b.length = 4 * refs.length ∧
      refArrayFrom b refs.length = .ok refs := by
  have h : OfType .reference (refs.map Val.reference) := by
    intro v hv
    obtain ⟨x, _, rfl⟩ := List.mem_map.1 hv
    exact ⟨rfl, trivial⟩
  obtain ⟨b, h1, h2⟩ := plain_roundtrip .reference (by decide) (refs.map Val.reference)
    (by simpa using hne) h
  obtain ⟨b', h3, _⟩ := h2 0 [] (.inr rfl)
  rw [List.append_nil, List.length_map] at h3
  have hl : b.length = 4 * refs.length := by
    have hh : (refsBytes ((refs.map Val.reference).map Val.refNum)).length = refs.length * 4 := by
      rw [refsBytes_eq, refsBytes_length]; simp
    obtain ⟨q, g1, g2, _⟩ := deinterleave_interleave _ 4 refs.length (by decide)
      (List.length_pos_iff.2 hne) hh
    simp only [plainToBytes, plainBytes, interleaved, TypeID.size, Res.ok_bind, if_true, g1,
      Res.ok.injEq] at h1
    subst h1; omega
  refine ⟨b, by simp [refArrayToBytes, h1], hl, ?_⟩
  simp [refArrayFrom, h3, Function.comp_def, Val.canon, Val.refNum]

end Rbxl

import Verif.Rbxl.Partial
import Verif.Rbxl.ModelLemmas
/-!
# A chunk that can be decoded is what was decoded of it
-/
namespace Rbxl
open Go

theorem padTo_of_length {α : Type} {n : Nat} {z : α} {l : List α} (h : l.length = n) : padTo n z l = l := by
  simp [padTo, h]

theorem elemsPart_ok {t : TypeID} : ∀ (n i : Nat) (b : Bytes) (vs : List Val) (m : Nat),
    elemsFrom t i n b = .ok (vs, m) → elemsPart t n b = vs ∧ vs.length = n
  | 0, i, b, vs, m, h => by rw [elemsFrom] at h; cases h; exact ⟨rfl, rfl⟩
  | n + 1, i, b, vs, m, h => by
    simp only [elemsFrom, Res.bind_eq_ok] at h
    obtain ⟨⟨v, nn⟩, h1, ⟨vs', m'⟩, h2, h3⟩ := h
    simp only [Res.pure_eq, Res.ok.injEq, Prod.mk.injEq] at h3
    obtain ⟨rfl, rfl⟩ := h3
    have h1' : Val.fromBytes t b = .ok (v, nn) := by
      cases hf : Val.fromBytes t b <;> rw [hf] at h1 <;> simp_all [Res.mapErr]
    obtain ⟨e1, e2⟩ := elemsPart_ok n (i + 1) _ _ _ h2
    rw [elemsPart, h1']
    exact ⟨by simp only; rw [e1], by simp [e2]⟩

theorem refsPart_ok : ∀ (n i : Nat) (prev : BitVec 32) (b : Bytes) (vs : List Val) (m : Nat),
    refsFrom i n prev b = .ok (vs, m) → refsPart n prev b = vs ∧ vs.length = n
  | 0, i, prev, b, vs, m, h => by rw [refsFrom] at h; cases h; exact ⟨rfl, rfl⟩
  | n + 1, i, prev, b, vs, m, h => by
    simp only [refsFrom, Res.bind_eq_ok] at h
    obtain ⟨⟨v, nn⟩, h1, ⟨vs', m'⟩, h2, h3⟩ := h
    simp only [Res.pure_eq, Res.ok.injEq, Prod.mk.injEq] at h3
    obtain ⟨rfl, rfl⟩ := h3
    have h1' : Val.fromBytes .reference b = .ok (v, nn) := by
      cases hf : Val.fromBytes .reference b <;> rw [hf] at h1 <;> simp_all [Res.mapErr]
    obtain ⟨e1, e2⟩ := refsPart_ok n (i + 1) _ _ _ _ h2
    rw [refsPart, h1']
    exact ⟨by simp only; rw [e1], by simp [e2]⟩

theorem positionsPart_ok : ∀ (n i : Nat) (b : Bytes) (vs : List Vec3) (m : Nat),
    positionsFrom i n b = .ok (vs, m) → positionsPart n b = vs ∧ vs.length = n
  | 0, i, b, vs, m, h => by rw [positionsFrom] at h; cases h; exact ⟨rfl, rfl⟩
  | n + 1, i, b, vs, m, h => by
    simp only [positionsFrom, Res.bind_eq_ok] at h
    obtain ⟨⟨v, nn⟩, h1, ⟨vs', m'⟩, h2, h3⟩ := h
    simp only [Res.pure_eq, Res.ok.injEq, Prod.mk.injEq] at h3
    obtain ⟨rfl, rfl⟩ := h3
    have h1' : vec3From b = .ok (v, nn) := by
      cases hf : vec3From b <;> rw [hf] at h1 <;> simp_all [Res.mapErr]
    obtain ⟨e1, e2⟩ := positionsPart_ok n (i + 1) _ _ _ h2
    rw [positionsPart, h1']
    exact ⟨by simp only; rw [e1], by simp [e2]⟩

theorem cframeHeadsPart_ok : ∀ (n i : Nat) (b : Bytes) (hs : List (Byte × Rot)) (r : Bytes) (m : Nat),
    cframeHeads i n b = .ok (hs, r, m) → cframeHeadsPart n b = (hs, some r) ∧ hs.length = n
  | 0, i, b, hs, r, m, h => by rw [cframeHeads] at h; cases h; exact ⟨rfl, rfl⟩
  | n + 1, i, b, hs, r, m, h => by
    simp only [cframeHeads, Res.bind_eq_ok] at h
    obtain ⟨⟨cond, b1, k⟩, h1, ⟨⟨rot, k'⟩, b2⟩, h2, ⟨hs', r', m'⟩, h3, h4⟩ := h
    simp only [Res.pure_eq, Res.ok.injEq, Prod.mk.injEq] at h4
    obtain ⟨rfl, rfl, rfl⟩ := h4
    have h1' : checkLengthCond condSizeCFrame b = .ok (cond, b1, k) := by
      cases hf : checkLengthCond condSizeCFrame b <;> rw [hf] at h1 <;> simp_all [Res.mapErr]
    obtain ⟨e1, e2⟩ := cframeHeadsPart_ok n (i + 1) _ _ _ _ h3
    rw [cframeHeadsPart, h1']
    simp only at h2 ⊢
    split at h2
    · rename_i hc
      simp only [Res.bind_eq_ok, Res.pure_eq, Res.ok.injEq, Prod.mk.injEq] at h2
      obtain ⟨⟨rot', b3⟩, h5, ⟨rfl, -⟩, rfl⟩ := h2
      rw [if_pos hc, h5]
      exact ⟨by simp only; rw [e1], by simp [e2]⟩
    · rename_i hc
      simp only [Res.pure_eq, Res.ok.injEq, Prod.mk.injEq] at h2
      obtain ⟨⟨rfl, -⟩, rfl⟩ := h2
      rw [if_neg hc, e1]
      exact ⟨rfl, by simp [e2]⟩

theorem cframeQuatHeadsPart_ok : ∀ (n i : Nat) (b : Bytes) (hs : List (Byte × F32 × F32 × F32 × F32)) (r : Bytes) (m : Nat),
    cframeQuatHeads i n b = .ok (hs, r, m) → cframeQuatHeadsPart n b = (hs, some r) ∧ hs.length = n
  | 0, i, b, hs, r, m, h => by rw [cframeQuatHeads] at h; cases h; exact ⟨rfl, rfl⟩
  | n + 1, i, b, hs, r, m, h => by
    simp only [cframeQuatHeads, Res.bind_eq_ok] at h
    obtain ⟨⟨cond, b1, k⟩, h1, ⟨⟨rot, k'⟩, b2⟩, h2, ⟨hs', r', m'⟩, h3, h4⟩ := h
    simp only [Res.pure_eq, Res.ok.injEq, Prod.mk.injEq] at h4
    obtain ⟨rfl, rfl, rfl⟩ := h4
    have h1' : checkLengthCond condSizeCFrameQuat b = .ok (cond, b1, k) := by
      cases hf : checkLengthCond condSizeCFrameQuat b <;> rw [hf] at h1 <;> simp_all [Res.mapErr]
    obtain ⟨e1, e2⟩ := cframeQuatHeadsPart_ok n (i + 1) _ _ _ _ h3
    rw [cframeQuatHeadsPart, h1']
    simp only at h2 ⊢
    split at h2
    · rename_i hc
      simp only [Res.bind_eq_ok, Res.pure_eq, Res.ok.injEq, Prod.mk.injEq] at h2
      obtain ⟨⟨rot', b3⟩, h5, ⟨rfl, -⟩, rfl⟩ := h2
      rw [if_pos hc, h5]
      exact ⟨by simp only; rw [e1], by simp [e2]⟩
    · rename_i hc
      simp only [Res.pure_eq, Res.ok.injEq, Prod.mk.injEq] at h2
      obtain ⟨⟨rfl, -⟩, rfl⟩ := h2
      rw [if_neg hc, e1]
      exact ⟨rfl, by simp [e2]⟩

theorem vec3From_le {b : Bytes} {v : Vec3} {nn : Nat} (h : vec3From b = .ok (v, nn)) : 12 ≤ b.length ∧ nn = 12 := by
  unfold vec3From constFrom at h
  split at h
  · cases h
  · obtain ⟨⟨_, _⟩, _, h⟩ := (Res.bind_eq_ok ..).1 h
    simp only [Res.pure_eq, Res.ok.injEq, Prod.mk.injEq] at h
    exact ⟨by omega, h.2.symm⟩

theorem positionsFrom_le : ∀ (n i : Nat) (b : Bytes) (vs : List Vec3) (m : Nat), positionsFrom i n b = .ok (vs, m) → n * 12 ≤ b.length
  | 0, _, _, _, _, _ => by omega
  | n + 1, i, b, vs, m, h => by
    simp only [positionsFrom, Res.bind_eq_ok] at h
    obtain ⟨⟨v, nn⟩, h1, ⟨vs', m'⟩, h2, -⟩ := h
    have h1' : vec3From b = .ok (v, nn) := by
      cases hf : vec3From b <;> rw [hf] at h1 <;> simp_all [Res.mapErr]
    obtain ⟨h3, h4⟩ := vec3From_le h1'
    have := positionsFrom_le n (i + 1) _ _ _ h2
    simp only [List.length_drop] at this
    omega

theorem framePositions_ok {spill : Nat → Bytes → Bytes} {slack n : Nat} {r r' : Bytes} {ps : List Vec3} {k : Nat}
    (h1 : deinterleavePrefix slack r n = .ok r') (h2 : positionsFrom 0 n r' = .ok (ps, k)) :
    framePositions spill n (some r) = ps ∧ ps.length = n := by
  have hl := positionsFrom_le _ _ _ _ _ h2
  unfold deinterleavePrefix at h1
  unfold framePositions
  split at h1
  · rename_i hn
    simp only [Res.bind_eq_ok, Res.pure_eq, Res.ok.injEq] at h1
    obtain ⟨d, h3, rfl⟩ := h1
    dsimp only
    rw [if_pos hn, h3]
    exact positionsPart_ok _ _ _ _ _ h2
  · split at h1
    · cases h1
      exact absurd hl (by assumption)
    · cases h1

theorem plainPart_ok {spill : Nat → Bytes → Bytes} {slack n : Nat} {t : TypeID} {b r : Bytes} {vs : List Val} {m : Nat}
    (h : plainFrom slack t n b = .ok (vs, m, r)) : plainPart spill t n b = vs ∧ vs.length = n := by
  unfold plainFrom at h
  unfold plainPart
  simp only [Res.bind_eq_ok] at h
  obtain ⟨b', h1, h⟩ := h
  split
  rotate_left
  · rename_i hn
    exact absurd h1 (hn b')
  rename_i b'' hb
  have e0 : b'' = b' := by
    have := hb.symm.trans h1
    simpa using this
  subst e0
  cases t
  case cframe =>
    simp only [Res.bind_eq_ok, Res.pure_eq, Res.ok.injEq, Prod.mk.injEq] at h
    obtain ⟨⟨hs, r1, m1⟩, h2, r', h3, ⟨ps, k⟩, h4, rfl, -⟩ := h
    dsimp only at *
    obtain ⟨e1, e2⟩ := cframeHeadsPart_ok _ _ _ _ _ _ h2
    obtain ⟨e3, e4⟩ := framePositions_ok (spill := spill) h3 h4
    rw [e1]
    dsimp only
    rw [e3, padTo_of_length e2, padTo_of_length e4]
    exact ⟨rfl, by simp [e2, e4]⟩
  case cframeQuat =>
    simp only [Res.bind_eq_ok, Res.pure_eq, Res.ok.injEq, Prod.mk.injEq] at h
    obtain ⟨⟨hs, r1, m1⟩, h2, r', h3, ⟨ps, k⟩, h4, rfl, -⟩ := h
    dsimp only at *
    obtain ⟨e1, e2⟩ := cframeQuatHeadsPart_ok _ _ _ _ _ _ h2
    obtain ⟨e3, e4⟩ := framePositions_ok (spill := spill) h3 h4
    rw [e1]
    dsimp only
    rw [e3, padTo_of_length e2, padTo_of_length e4]
    exact ⟨rfl, by simp [e2, e4]⟩
  case reference =>
    simp only [Res.bind_eq_ok, Res.pure_eq, Res.ok.injEq, Prod.mk.injEq] at h
    obtain ⟨⟨ws, k⟩, h2, rfl, -⟩ := h
    obtain ⟨e1, e2⟩ := refsPart_ok _ _ _ _ _ _ h2
    dsimp only at *
    rw [e1, padTo_of_length e2]
    exact ⟨rfl, e2⟩
  all_goals
    simp only [Res.bind_eq_ok, Res.pure_eq, Res.ok.injEq, Prod.mk.injEq] at h
    obtain ⟨⟨ws, k⟩, h2, rfl, -⟩ := h
    obtain ⟨e1, e2⟩ := elemsPart_ok _ _ _ _ _ h2
    dsimp only at *
    rw [e1, padTo_of_length e2]
    exact ⟨rfl, e2⟩

theorem presentPart_ok {n : Nat} {b : Bytes} {ps : List Bool} {m : Nat} (h : presentFrom n b = .ok (ps, m)) :
    presentPart n b = ps ∧ ps.length = n := by
  cases b with
  | nil => cases h
  | cons tb b =>
    rw [presentFrom] at h
    rw [presentPart]
    split at h
    · cases h
    · rename_i h1
      rw [if_neg h1]
      split at h
      · cases h
      · rename_i h2
        rw [if_neg h2]
        simp only [Res.bind_eq_ok, Res.pure_eq, Res.ok.injEq, Prod.mk.injEq] at h
        obtain ⟨⟨ws, k⟩, h3, rfl, -⟩ := h
        obtain ⟨e1, e2⟩ := elemsPart_ok _ _ _ _ _ h3
        dsimp only at *
        rw [e1, padTo_of_length (by simp [e2])]
        exact ⟨rfl, by simp [e2]⟩

theorem arrPart_ok {spill : Nat → Bytes → Bytes} {slack n : Nat} : ∀ (b : Bytes) {a : Arr} {m : Nat} {r : Bytes},
    typeArrayFrom slack n b = .ok (a, m, r) → arrPart spill slack n b = some a
  | [], a, m, r, h => by cases h
  | tb :: rest, a, m, r, h => by
    rw [typeArrayFrom] at h
    rw [arrPart]
    split at h
    · cases h
    · rename_i h1
      rw [if_neg h1]
      cases ht : TypeID.ofByte tb with
      | none => rw [ht] at h; cases h
      | some t =>
        rw [ht] at h
        cases t
        case optional =>
          simp only [Res.bind_eq_ok, Res.pure_eq, Res.ok.injEq, Prod.mk.injEq] at h
          obtain ⟨⟨values, nn, rest'⟩, h2, ⟨present, mm⟩, h3, rfl, -⟩ := h
          dsimp only at *
          rw [h2]
          dsimp only
          rw [(presentPart_ok h3).1]
        all_goals
          simp only [Res.bind_eq_ok, Res.pure_eq, Res.ok.injEq, Prod.mk.injEq] at h
          obtain ⟨⟨vs, nn, rest'⟩, h2, rfl, -⟩ := h
          dsimp only at *
          rw [(plainPart_ok h2).1]

theorem refsLeft_ok {n : BitVec 32} {b r : Bytes} {ids : List (BitVec 32)} (h : readRefs n b = .ok (ids, r)) :
    refsLeft n b = (ids, some r) := by
  unfold refsLeft
  rw [h]

theorem partInst_ok {b r : Bytes} {c : InstChunk} (h : decodeInst b = .ok (c, r)) : partInst b = c := by
  unfold decodeInst at h
  simp only [rd_bind, Res.bind_eq_ok] at h
  obtain ⟨⟨classID, b1⟩, h1, ⟨className, b2⟩, h2, ⟨s, b3⟩, h3, ⟨n, b4⟩, h4, ⟨ids, b5⟩, h5, h⟩ := h
  dsimp only at *
  unfold partInst
  rw [h1]; dsimp only
  rw [h2]; dsimp only
  rw [h3]; dsimp only
  rw [h4]; dsimp only
  rw [refsLeft_ok h5]; dsimp only
  by_cases hs : (s != 0#8) = true
  · rw [if_pos hs] at h
    simp only [rd_bind, rd_pure, Res.bind_eq_ok, Res.ok.injEq, Prod.mk.injEq] at h
    obtain ⟨⟨gs, b6⟩, h6, rfl, -⟩ := h
    obtain ⟨e1, e2⟩ := takeN_ok h6
    dsimp only at *
    rw [hs, if_pos rfl, e1, List.take_left' e2, padTo_of_length e2]
  · rw [if_neg hs] at h
    simp only [rd_pure, Res.ok.injEq, Prod.mk.injEq] at h
    obtain ⟨rfl, -⟩ := h
    rw [Bool.not_eq_true] at hs
    rw [hs]
    rfl

theorem partParent_ok {b r : Bytes} {c : ParentChunk} (h : decodeParent b = .ok (c, r)) : partParent b = c := by
  unfold decodeParent at h
  simp only [rd_bind, rd_pure, Res.bind_eq_ok, Res.ok.injEq, Prod.mk.injEq] at h
  obtain ⟨⟨version, b1⟩, h1, ⟨n, b2⟩, h2, ⟨cs, b3⟩, h3, ⟨ps, b4⟩, h4, rfl, -⟩ := h
  dsimp only at *
  unfold partParent
  rw [h1]; dsimp only
  rw [h2]; dsimp only
  rw [refsLeft_ok h3]; dsimp only
  rw [refsLeft_ok h4]

theorem partProp_ok {spill : Nat → Bytes → Bytes} {slack : Bytes → Nat} {groups : Map (BitVec 32) (Nat × InstChunk)} {b r : Bytes}
    {c : PropChunk} (h : decodeProp slack groups b = .ok (c, r)) : partProp spill slack groups b = c := by
  unfold decodeProp at h
  simp only [rd_bind, Res.bind_eq_ok] at h
  obtain ⟨⟨classID, b1⟩, h1, h⟩ := h
  dsimp only at *
  unfold partProp
  rw [h1]; dsimp only
  rcases hg : Map.get? groups classID with _ | ⟨k, inst⟩ <;> rw [hg] at h
  · cases h
  · simp only [rd_bind, Res.bind_eq_ok] at h
    obtain ⟨⟨name, raw⟩, h2, h⟩ := h
    dsimp only at *
    rw [h2]; dsimp only
    simp only [takeAll, Res.ok.injEq, exists_eq_left'] at h
    split at h
    · rename_i hr
      simp only [rd_pure, Res.ok.injEq, Prod.mk.injEq] at h
      obtain ⟨rfl, -⟩ := h
      rw [if_pos hr]
    · rename_i hr
      simp only [rd_bind, rd_pure, liftRes, Res.bind_eq_ok, Res.pure_eq, Res.ok.injEq, Prod.mk.injEq] at h
      obtain ⟨⟨⟨a, m, r'⟩, _⟩, ⟨⟨x, y, z⟩, h3, h4⟩, rfl, -⟩ := h
      rw [if_neg hr]
      dsimp only at *
      cases h4
      rw [arrPart_ok _ h3]

theorem pairsPart_ok : ∀ (n : Nat) (b r : Bytes) (l : List (Bytes × Bytes)), rdMany readPair n b = .ok (l, r) →
    pairsPart n b = l ∧ l.length = n
  | 0, b, r, l, h => by
    rw [rdMany] at h; cases h; exact ⟨rfl, rfl⟩
  | n + 1, b, r, l, h => by
    simp only [rdMany, readPair, rd_bind, rd_pure, Res.bind_eq_ok, Res.ok.injEq, Prod.mk.injEq] at h
    obtain ⟨⟨p, b1⟩, ⟨⟨k, b2⟩, h1, ⟨v, b3⟩, h2, rfl, rfl⟩, ⟨l', b4⟩, h3, rfl, -⟩ := h
    dsimp only at *
    obtain ⟨e1, e2⟩ := pairsPart_ok n _ _ _ h3
    rw [pairsPart, h1]; dsimp only
    rw [h2]; dsimp only
    rw [e1]
    exact ⟨rfl, by simp [e2]⟩

theorem sharedPart_ok : ∀ (n : Nat) (b r : Bytes) (l : List (Bytes × Bytes)), rdMany readShared n b = .ok (l, r) →
    sharedPart n b = l ∧ l.length = n
  | 0, b, r, l, h => by
    rw [rdMany] at h; cases h; exact ⟨rfl, rfl⟩
  | n + 1, b, r, l, h => by
    simp only [rdMany, readShared, rd_bind, rd_pure, Res.bind_eq_ok, Res.ok.injEq, Prod.mk.injEq] at h
    obtain ⟨⟨p, b1⟩, ⟨⟨k, b2⟩, h1, ⟨v, b3⟩, h2, rfl, rfl⟩, ⟨l', b4⟩, h3, rfl, -⟩ := h
    dsimp only at *
    obtain ⟨e1, e2⟩ := sharedPart_ok n _ _ _ h3
    rw [sharedPart, h1]; dsimp only
    rw [h2]; dsimp only
    rw [e1]
    exact ⟨rfl, by simp [e2]⟩

/-- When the chunk can be decoded, what was decoded is the chunk. -/
theorem partBody_ok {spill : Nat → Bytes → Bytes} {slack : Bytes → Nat} {groups : Map (BitVec 32) (Nat × InstChunk)} {raw : Raw}
    {b : Body} (h : decodeBody slack groups raw = some (.ok b)) : partBody spill slack groups raw.sig raw.payload = b := by
  unfold decodeBody at h
  unfold partBody
  extract_lets run at h
  have key : ∀ {α : Type} {f : Rd α} {k : α → Body}, run f k = some (.ok b) → ∃ a r, f raw.payload = .ok (a, r) ∧ k a = b := by
    intro α f k hr
    simp only [run, Option.some.injEq, Res.bind_eq_ok, Res.pure_eq, Res.ok.injEq] at hr
    obtain ⟨⟨a, r⟩, h1, h2⟩ := hr
    exact ⟨a, r, h1, h2⟩
  split at h
  · rename_i hs
    obtain ⟨l, r, h1, rfl⟩ := key h
    rw [if_pos hs]
    simp only [decodeMeta, rd_bind, Res.bind_eq_ok] at h1
    obtain ⟨⟨n, b1⟩, h2, h3⟩ := h1
    obtain ⟨e1, e2⟩ := pairsPart_ok _ _ _ _ h3
    unfold partMeta
    rw [h2]
    dsimp only at *
    rw [e1, padTo_of_length e2]
  rename_i n1; rw [if_neg n1]
  split at h
  · rename_i hs
    obtain ⟨l, r, h1, rfl⟩ := key h
    rw [if_pos hs]
    simp only [decodeShared, rd_bind, rd_pure, Res.bind_eq_ok, Res.ok.injEq, Prod.mk.injEq] at h1
    obtain ⟨⟨v, b1⟩, h2, ⟨n, b2⟩, h3, ⟨vs, b3⟩, h4, rfl, -⟩ := h1
    obtain ⟨e1, e2⟩ := sharedPart_ok _ _ _ _ h4
    unfold partShared
    dsimp only at *
    rw [h2]; dsimp only
    rw [h3]; dsimp only
    rw [e1, padTo_of_length e2]
  rename_i n2; rw [if_neg n2]
  split at h
  · rename_i hs
    obtain ⟨c, r, h1, rfl⟩ := key h
    rw [if_pos hs, partInst_ok h1]
  rename_i n3; rw [if_neg n3]
  split at h
  · rename_i hs
    obtain ⟨c, r, h1, rfl⟩ := key h
    rw [if_pos hs, partProp_ok h1]
  rename_i n4; rw [if_neg n4]
  split at h
  · rename_i hs
    obtain ⟨c, r, h1, rfl⟩ := key h
    rw [if_pos hs, partParent_ok h1]
  rename_i n5; rw [if_neg n5]
  split at h
  · rename_i hs
    obtain ⟨c, r, h1, rfl⟩ := key h
    rw [if_pos hs]
    simp only [decodeEnd, takeAll, Res.ok.injEq, Prod.mk.injEq] at h1
    rw [h1.1]
  · cases h

end Rbxl

import Verif.Rbxl.PartialLemmas
import Verif.Rbxl.PanicFrames
import Verif.Rbxl.Size
import Verif.Spec.Cut
/-!
# Reading fewer bytes
-/
namespace Rbxl
open Go Spec

/-- What a reader reads: `w a` are the bytes of `a`. -/
def ReadsBytes {α : Type} (f : Rd α) (W : α → Bytes → Prop) (n : α → Nat) : Prop :=
  ∀ b a r, f b = .ok (a, r) ↔ ∃ w, b = w ++ r ∧ W a w ∧ w.length = n a

/-- Reading what remains after some bytes were cut off. -/
def Cuts {α : Type} (f : Rd α) (n : α → Nat) : Prop := ∀ p t a r, f (p ++ t) = .ok (a, r) →
  (n a ≤ p.length ∧ f p = .ok (a, p.drop (n a)) ∧ r = p.drop (n a) ++ t) ∨ (p.length < n a ∧ ∀ x, f p ≠ .ok x)

theorem ReadsBytes.cuts {α : Type} {f : Rd α} {W : α → Bytes → Prop} {n : α → Nat} (h : ReadsBytes f W n)
    (hu : ∀ a a' r r' b, f b = .ok (a, r) → f b = .ok (a', r') → a = a') : Cuts f n := by
  intro p t a r ha
  obtain ⟨w, h1, h2, h3⟩ := (h _ _ _).1 ha
  by_cases hn : n a ≤ p.length
  · left
    rw [← h3] at hn ⊢
    have e1 : p.take w.length = w := by
      have := congrArg (List.take w.length) h1
      rwa [List.take_append_of_le_length hn, List.take_left] at this
    have e2 : r = p.drop w.length ++ t := by
      have := congrArg (List.drop w.length) h1
      rw [List.drop_append_of_le_length hn, List.drop_left] at this
      exact this.symm
    refine ⟨hn, (h _ _ _).2 ⟨w, ?_, h2, h3⟩, e2⟩
    conv => lhs; rw [← List.take_append_drop w.length p]
    rw [e1]
  · right
    refine ⟨by omega, ?_⟩
    rintro ⟨a', r'⟩ hp
    obtain ⟨w', g1, g2, g3⟩ := (h _ _ _).1 hp
    have : f (p ++ t) = .ok (a', r' ++ t) := (h _ _ _).2 ⟨w', by rw [g1, List.append_assoc], g2, g3⟩
    have e := hu _ _ _ _ _ ha this
    subst e
    have := congrArg List.length g1
    simp only [List.length_append] at this
    omega

theorem unique_read {α : Type} {f : Rd α} (a a' : α) (r r' b : Bytes) (h1 : f b = .ok (a, r)) (h2 : f b = .ok (a', r')) : a = a' := by
  have := h1.symm.trans h2
  simp only [Res.ok.injEq, Prod.mk.injEq] at this
  exact this.1

theorem num32_cuts : Cuts num32 fun _ => 4 := by
  refine ReadsBytes.cuts (W := fun a w => w = le32 a) (fun b a r => ⟨fun h => ⟨_, num32_ok h, rfl, rfl⟩, ?_⟩) unique_read
  rintro ⟨w, rfl, rfl, -⟩
  exact num32_app a r

theorem num8_cuts : Cuts num8 fun _ => 1 := by
  refine ReadsBytes.cuts (W := fun a w => w = [a]) (fun b a r => ⟨fun h => ?_, ?_⟩) unique_read
  · cases b with
    | nil => cases h
    | cons x b =>
      simp only [num8, List.length_cons] at h
      rw [if_neg (by omega)] at h
      cases h
      exact ⟨_, rfl, rfl, rfl⟩
  · rintro ⟨w, rfl, rfl, -⟩
    rfl

theorem takeN_cuts (k : Nat) : Cuts (takeN k) fun _ => k := by
  refine ReadsBytes.cuts (W := fun a w => w = a) (fun b a r => ⟨fun h => ?_, ?_⟩) unique_read
  · obtain ⟨h1, h2⟩ := takeN_ok h
    exact ⟨a, h1, rfl, h2⟩
  · rintro ⟨w, rfl, rfl, h⟩
    exact takeN_app h r

theorem readString_cuts : Cuts readString fun s => 4 + s.length := by
  refine ReadsBytes.cuts (W := fun a w => ∃ len : BitVec 32, w = le32 len ++ a ∧ a.length = len.toNat) (fun b a r => ⟨fun h => ?_, ?_⟩) unique_read
  · obtain ⟨len, h1, h2⟩ := readString_eq.1 h
    exact ⟨le32 len ++ a, by rw [h1, List.append_assoc], ⟨len, rfl, h2⟩, by simp [le32]; omega⟩
  · rintro ⟨w, rfl, ⟨len, rfl, h2⟩, -⟩
    exact readString_eq.2 ⟨len, by rw [List.append_assoc], h2⟩

theorem readRefs_cuts (n : BitVec 32) : Cuts (readRefs n) fun _ => if n = 0#32 then 0 else (n * 4#32).toNat := by
  by_cases h0 : n = 0#32
  · intro p t a r h
    simp only [readRefs, if_pos h0] at h ⊢
    cases h
    exact .inl ⟨Nat.zero_le _, rfl, rfl⟩
  · simp only [if_neg h0]
    refine ReadsBytes.cuts (W := fun a w => refArrayFrom w n.toNat = .ok a) (fun b a r => ⟨fun h => ?_, ?_⟩) unique_read
    · simp only [readRefs, if_neg h0, rd_bind] at h
      obtain ⟨⟨raw, r1⟩, h1, h2⟩ := (Res.bind_eq_ok ..).1 h
      obtain ⟨e1, e2⟩ := takeN_ok h1
      simp only [liftRes] at h2
      obtain ⟨l, e3, h3⟩ := (Res.bind_eq_ok ..).1 h2
      cases h3
      exact ⟨raw, e1, e3, e2⟩
    · rintro ⟨w, rfl, h1, h2⟩
      simp only [readRefs, if_neg h0, rd_bind]
      rw [takeN_app h2]
      simp only [Res.ok_bind, liftRes, h1]
      rfl

theorem many_length {α : Type} {f : Rd α} : ∀ (n : Nat) (b : Bytes) (l : List α) (r : Bytes), rdMany f n b = .ok (l, r) → l.length = n
  | 0, b, l, r, h => by cases h; rfl
  | n + 1, b, l, r, h => by
    simp only [rdMany, rd_bind] at h
    obtain ⟨⟨x, r1⟩, -, h⟩ := (Res.bind_eq_ok ..).1 h
    obtain ⟨⟨l', r2⟩, h2, h⟩ := (Res.bind_eq_ok ..).1 h
    cases h
    rw [List.length_cons, many_length n _ _ _ h2]

theorem toldPairs_none : ∀ (n : Nat) (l : List (Bytes × Bytes)), n < 4 → toldPairs n l = List.replicate l.length ([], [])
  | n, [], h => rfl
  | n, (k, v) :: l, h => by
    rw [toldPairs, toldPairs_none _ l (by omega), List.length_cons, List.replicate_succ, toldString, toldString, toldIf, toldIf,
      if_neg (by omega), if_neg (by omega)]

theorem pairs_cut : ∀ (n : Nat) (p t : Bytes) (l : List (Bytes × Bytes)) (r : Bytes), rdMany readPair n (p ++ t) = .ok (l, r) →
    padTo n ([], []) (pairsPart n p) = toldPairs p.length l
  | 0, p, t, l, r, h => by
    cases h; rfl
  | n + 1, p, t, l, r, h => by
    simp only [rdMany, readPair, rd_bind] at h
    obtain ⟨⟨⟨k, v⟩, r2⟩, h1, h⟩ := (Res.bind_eq_ok ..).1 h
    obtain ⟨⟨k', r1⟩, h2, h1⟩ := (Res.bind_eq_ok ..).1 h1
    obtain ⟨⟨v', r2'⟩, h3, h1⟩ := (Res.bind_eq_ok ..).1 h1
    dsimp only at h1
    cases h1
    obtain ⟨⟨l', r3⟩, h4, h⟩ := (Res.bind_eq_ok ..).1 h
    cases h
    dsimp only at h2 h3 h4
    have hl := many_length _ _ _ _ h4
    rw [pairsPart, toldPairs]
    rcases readString_cuts p t _ _ h2 with ⟨g1, g2, rfl⟩ | ⟨g1, g2⟩
    · dsimp only at *
      rw [g2]
      simp only
      have e1 : toldString p.length k = k := by rw [toldString, toldIf, if_pos g1]
      rw [e1]
      rcases readString_cuts _ t _ _ h3 with ⟨g3, g4, rfl⟩ | ⟨g3, g4⟩
      · dsimp only at *
        rw [g4]
        simp only
        rw [List.length_drop] at g3
        have ih := pairs_cut n _ t l' _ h4
        simp only [padTo, List.length_drop, List.length_cons, Nat.add_sub_add_right, List.cons_append] at ih ⊢
        rw [ih, toldString, toldIf, if_pos g3]
      · dsimp only at *
        rw [List.length_drop] at g3
        rw [toldString, toldIf, if_neg (by omega), toldPairs_none _ _ (by omega), hl]
        split
        · exact absurd (by assumption) (g4 _)
        · rfl
    · dsimp only at *
      rw [toldString, toldString, toldIf, toldIf, if_neg (by omega), if_neg (by omega), toldPairs_none _ _ (by omega), hl]
      split
      · exact absurd (by assumption) (g2 _)
      · rfl

theorem toldShared_none : ∀ (l : List (Bytes × Bytes)), (∀ x ∈ l, x.1.length = 16) →
    toldShared 0 l = List.replicate l.length (List.replicate 16 0#8, [])
  | [], h => rfl
  | (k, v) :: l, h => by
    rw [toldShared, Nat.zero_sub, Nat.zero_sub, toldShared_none l (fun x hx => h x (List.mem_cons_of_mem _ hx)), List.length_cons,
      List.replicate_succ, toldString, toldIf, if_neg (by omega), toldBytes, h (k, v) (List.mem_cons_self ..)]
    rfl

theorem shared_hash : ∀ (n : Nat) (b : Bytes) (l : List (Bytes × Bytes)) (r : Bytes), rdMany readShared n b = .ok (l, r) →
    ∀ x ∈ l, x.1.length = 16
  | 0, b, l, r, h => by cases h; nofun
  | n + 1, b, l, r, h => by
    simp only [rdMany, readShared, rd_bind] at h
    obtain ⟨⟨⟨k, v⟩, r2⟩, h1, h⟩ := (Res.bind_eq_ok ..).1 h
    obtain ⟨⟨k', r1⟩, h2, h1⟩ := (Res.bind_eq_ok ..).1 h1
    obtain ⟨⟨v', r2'⟩, h3, h1⟩ := (Res.bind_eq_ok ..).1 h1
    dsimp only at h1
    cases h1
    obtain ⟨⟨l', r3⟩, h4, h⟩ := (Res.bind_eq_ok ..).1 h
    cases h
    intro x hx
    rcases List.mem_cons.1 hx with rfl | hx
    · exact (takeN_ok h2).2
    · exact shared_hash n _ _ _ h4 x hx

theorem shared_cut : ∀ (n : Nat) (p t : Bytes) (l : List (Bytes × Bytes)) (r : Bytes), rdMany readShared n (p ++ t) = .ok (l, r) →
    padTo n (List.replicate 16 0#8, []) (sharedPart n p) = toldShared p.length l
  | 0, p, t, l, r, h => by
    cases h; rfl
  | n + 1, p, t, l, r, h => by
    have hh := shared_hash _ _ _ _ h
    simp only [rdMany, readShared, rd_bind] at h
    obtain ⟨⟨⟨k, v⟩, r2⟩, h1, h⟩ := (Res.bind_eq_ok ..).1 h
    obtain ⟨⟨k', r1⟩, h2, h1⟩ := (Res.bind_eq_ok ..).1 h1
    obtain ⟨⟨v', r2'⟩, h3, h1⟩ := (Res.bind_eq_ok ..).1 h1
    dsimp only at h1
    cases h1
    obtain ⟨⟨l', r3⟩, h4, h⟩ := (Res.bind_eq_ok ..).1 h
    cases h
    dsimp only at h2 h3 h4
    have hl := many_length _ _ _ _ h4
    have hk : k.length = 16 := hh (k, v) (List.mem_cons_self ..)
    have hh' : ∀ x ∈ l', x.1.length = 16 := fun x hx => hh x (List.mem_cons_of_mem _ hx)
    rw [sharedPart, toldShared]
    rcases takeN_cuts 16 p t _ _ h2 with ⟨g1, g2, rfl⟩ | ⟨g1, g2⟩
    · dsimp only at *
      rw [g2]
      simp only
      have e1 : toldBytes p.length k = k := by
        rw [toldBytes, List.take_of_length_le (by omega), show k.length - p.length = 0 by omega]; simp
      rw [e1]
      rcases readString_cuts _ t _ _ h3 with ⟨g3, g4, rfl⟩ | ⟨g3, g4⟩
      · dsimp only at *
        rw [g4]
        simp only
        rw [List.length_drop] at g3
        have ih := shared_cut n _ t l' _ h4
        simp only [padTo, List.length_drop, List.length_cons, Nat.add_sub_add_right, List.cons_append] at ih ⊢
        rw [ih, toldString, toldIf, if_pos g3]
      · dsimp only at *
        rw [List.length_drop] at g3
        rw [toldString, toldIf, if_neg (by omega), show p.length - 16 - (4 + v.length) = 0 by omega, toldShared_none _ hh', hl]
        split
        · exact absurd (by assumption) (g4 _)
        · rfl
    · dsimp only at *
      have e2 : k.take p.length = p := by
        obtain ⟨e3, -⟩ := takeN_ok h2
        have := congrArg (List.take p.length) e3
        rw [List.take_left, List.take_append_of_le_length (by omega)] at this
        exact this.symm
      rw [toldString, toldIf, if_neg (by omega), show p.length - 16 - (4 + v.length) = 0 by omega, toldShared_none _ hh', hl, toldBytes, e2, hk]
      split
      · exact absurd (by assumption) (g2 _)
      · rw [List.take_of_length_le (by omega)]
        rfl

theorem readRefs_bytes {n : BitVec 32} {b r : Bytes} {l : List (BitVec 32)} (h : readRefs n b = .ok (l, r)) :
    l.length = n.toNat ∧ (if n = 0#32 then 0 else (n * 4#32).toNat) = 4 * l.length := by
  unfold readRefs at h
  by_cases h0 : n = 0#32
  · rw [if_pos h0] at h
    cases h
    subst h0
    exact ⟨rfl, rfl⟩
  · rw [if_neg h0, rd_bind] at h
    obtain ⟨⟨raw, b1⟩, h1, h⟩ := (Res.bind_eq_ok ..).1 h
    simp only [liftRes] at h
    obtain ⟨l', e, h⟩ := (Res.bind_eq_ok ..).1 h
    cases h
    have h2 := refArrayFrom_size e
    have h3 := (takeN_ok h1).2
    have h4 : l.length = n.toNat := by
      simp only [refArrayFrom] at e
      obtain ⟨⟨vs, m, b'⟩, e1, e⟩ := (Res.bind_eq_ok ..).1 e
      cases e
      rw [List.length_map]
      exact (plainPart_ok (spill := fun _ _ => []) e1).2
    rw [if_neg h0]
    refine ⟨h4, ?_⟩
    rw [BitVec.toNat_mul] at h3 ⊢
    simp only [BitVec.toNat_ofNat] at h3 ⊢
    omega

theorem refs_cut {n : BitVec 32} {p t r : Bytes} {l : List (BitVec 32)} (h : readRefs n (p ++ t) = .ok (l, r)) :
    (4 * l.length ≤ p.length ∧ refsLeft n p = (l, some (p.drop (4 * l.length))) ∧ r = p.drop (4 * l.length) ++ t ∧ toldIds p.length l = l) ∨
    (p.length < 4 * l.length ∧ refsLeft n p = (List.replicate l.length 0, none) ∧ toldIds p.length l = List.replicate l.length 0) := by
  obtain ⟨h1, h2⟩ := readRefs_bytes h
  have h3 := readRefs_cuts n p t l r h
  rw [h2] at h3
  dsimp only at h3
  rcases h3 with ⟨g1, g2, g3⟩ | ⟨g1, g2⟩
  · left
    rw [refsLeft, g2, toldIds, toldIf, if_pos g1]
    exact ⟨g1, rfl, g3, rfl⟩
  · right
    rw [refsLeft, toldIds, toldIf, if_neg (by omega), h1]
    refine ⟨by omega, ?_, rfl⟩
    split
    · exact absurd (by assumption) (g2 _)
    · rfl

theorem meta_cut {p t r : Bytes} {l : List (Bytes × Bytes)} (h : decodeMeta (p ++ t) = .ok (l, r)) :
    partMeta p = if 4 ≤ p.length then toldPairs (p.length - 4) l else [] := by
  simp only [decodeMeta, rd_bind] at h
  obtain ⟨⟨n, r1⟩, h1, h⟩ := (Res.bind_eq_ok ..).1 h
  dsimp only at h
  unfold partMeta
  rcases num32_cuts p t _ _ h1 with ⟨g1, g2, rfl⟩ | ⟨g1, g2⟩ <;> dsimp only at *
  · rw [g2, if_pos g1]
    dsimp only
    rw [pairs_cut _ _ t _ _ h, List.length_drop]
  · rw [if_neg (by omega)]
    split
    · exact absurd (by assumption) (g2 _)
    · rfl

theorem sharedChunk_cut {p t r : Bytes} {c : SharedChunk} (h : decodeShared (p ++ t) = .ok (c, r)) :
    partShared p = ⟨toldIf p.length 4 0 c.version, if 8 ≤ p.length then toldShared (p.length - 8) c.values else []⟩ := by
  simp only [decodeShared, rd_bind] at h
  obtain ⟨⟨v, r1⟩, h1, h⟩ := (Res.bind_eq_ok ..).1 h
  obtain ⟨⟨n, r2⟩, h2, h⟩ := (Res.bind_eq_ok ..).1 h
  obtain ⟨⟨l, r3⟩, h3, h⟩ := (Res.bind_eq_ok ..).1 h
  dsimp only at h h2 h3
  cases h
  unfold partShared
  rcases num32_cuts p t _ _ h1 with ⟨g1, g2, rfl⟩ | ⟨g1, g2⟩ <;> dsimp only at *
  · rw [g2, toldIf, if_pos g1]
    dsimp only
    rcases num32_cuts _ t _ _ h2 with ⟨g3, g4, rfl⟩ | ⟨g3, g4⟩ <;> dsimp only at * <;> rw [List.length_drop] at g3
    · rw [g4, if_pos (by omega)]
      dsimp only
      rw [shared_cut _ _ t _ _ h3, List.length_drop, List.length_drop, Nat.sub_sub]
    · rw [if_neg (by omega)]
      split
      · exact absurd (by assumption) (g4 _)
      · rfl
  · rw [toldIf, if_neg (by omega), if_neg (by omega)]
    split
    · exact absurd (by assumption) (g2 _)
    · rfl

theorem parent_cut {p t r : Bytes} {c : ParentChunk} (h : decodeParent (p ++ t) = .ok (c, r)) :
    partParent p = ⟨toldIf p.length 1 0 c.version, if 5 ≤ p.length then toldIds (p.length - 5) c.children else [],
      if 5 + 4 * c.children.length ≤ p.length then toldIds (p.length - (5 + 4 * c.children.length)) c.parents else []⟩ := by
  simp only [decodeParent, rd_bind] at h
  obtain ⟨⟨v, r1⟩, h1, h⟩ := (Res.bind_eq_ok ..).1 h
  obtain ⟨⟨n, r2⟩, h2, h⟩ := (Res.bind_eq_ok ..).1 h
  obtain ⟨⟨cs, r3⟩, h3, h⟩ := (Res.bind_eq_ok ..).1 h
  obtain ⟨⟨ps, r4⟩, h4, h⟩ := (Res.bind_eq_ok ..).1 h
  dsimp only at h h2 h3 h4
  cases h
  dsimp only
  unfold partParent
  rcases num8_cuts p t _ _ h1 with ⟨g1, g2, rfl⟩ | ⟨g1, g2⟩ <;> dsimp only at *
  · rw [g2, toldIf, if_pos g1]
    dsimp only
    rcases num32_cuts _ t _ _ h2 with ⟨g3, g4, rfl⟩ | ⟨g3, g4⟩ <;> dsimp only at * <;> rw [List.length_drop] at g3
    · rw [g4, if_pos (by omega)]
      dsimp only
      have e0 : ((p.drop 1).drop 4).length = p.length - 5 := by simp only [List.length_drop]; omega
      rcases refs_cut h3 with ⟨g5, g6, rfl, g7⟩ | ⟨g5, g6, g7⟩ <;> rw [e0] at g5 g7
      · rw [g6, g7, if_pos (by omega)]
        dsimp only
        have e1 : (((p.drop 1).drop 4).drop (4 * cs.length)).length = p.length - (5 + 4 * cs.length) := by simp only [List.length_drop]; omega
        rcases refs_cut h4 with ⟨g8, g9, -, g10⟩ | ⟨g8, g9, g10⟩ <;> rw [e1] at g10 <;> rw [g9, g10]
      · rw [g6, g7, if_neg (by omega)]
    · rw [if_neg (by omega), if_neg (by omega)]
      split
      · exact absurd (by assumption) (g4 _)
      · rfl
  · rw [toldIf, if_neg (by omega), if_neg (by omega), if_neg (by omega)]
    split
    · exact absurd (by assumption) (g2 _)
    · rfl

theorem inst_cut {p t r : Bytes} {c : InstChunk} (h : decodeInst (p ++ t) = .ok (c, r)) :
    partInst p = ⟨toldIf p.length 4 0 c.classID, toldString (p.length - 4) c.className,
      if 13 + c.className.length ≤ p.length then toldIds (p.length - (13 + c.className.length)) c.ids else [],
      toldIf p.length (9 + c.className.length) false c.isService,
      if 13 + c.className.length + 4 * c.ids.length ≤ p.length then
        toldBytes (p.length - (13 + c.className.length + 4 * c.ids.length)) c.getService else []⟩ := by
  simp only [decodeInst, rd_bind] at h
  obtain ⟨⟨id, r1⟩, h1, h⟩ := (Res.bind_eq_ok ..).1 h
  obtain ⟨⟨cn, r2⟩, h2, h⟩ := (Res.bind_eq_ok ..).1 h
  obtain ⟨⟨s, r3⟩, h3, h⟩ := (Res.bind_eq_ok ..).1 h
  obtain ⟨⟨n, r4⟩, h4, h⟩ := (Res.bind_eq_ok ..).1 h
  obtain ⟨⟨ids, r5⟩, h5, h⟩ := (Res.bind_eq_ok ..).1 h
  dsimp only at h h2 h3 h4 h5
  have hc : c.classID = id ∧ c.className = cn ∧ c.ids = ids ∧ c.isService = (s != 0#8) ∧
      ((s != 0#8) = true → takeN n.toNat r5 = .ok (c.getService, r)) ∧ ((s != 0#8) = false → c.getService = []) := by
    split at h
    · rename_i hs
      rw [rd_bind] at h
      obtain ⟨⟨gs, r6⟩, h6, h⟩ := (Res.bind_eq_ok ..).1 h
      cases h
      exact ⟨rfl, rfl, rfl, hs.symm, fun _ => h6, fun hx => by rw [hs] at hx; cases hx⟩
    · rename_i hs
      cases h
      exact ⟨rfl, rfl, rfl, by simpa using hs, fun hx => absurd hx hs, fun _ => rfl⟩
  obtain ⟨e1, e2, e3, e4, e5, e6⟩ := hc
  rw [e1, e2, e3, e4]
  unfold partInst
  rcases num32_cuts p t _ _ h1 with ⟨g1, g2, rfl⟩ | ⟨g1, g2⟩ <;> dsimp only at *
  rotate_left
  · rw [toldIf, if_neg (by omega), if_neg (by omega), toldIf, if_neg (by omega), toldString, toldIf, if_neg (by omega), if_neg (by omega)]
    split
    · exact absurd (by assumption) (g2 _)
    · rfl
  rw [g2, toldIf, if_pos g1]
  dsimp only
  rcases readString_cuts _ t _ _ h2 with ⟨g3, g4, rfl⟩ | ⟨g3, g4⟩ <;> dsimp only at * <;> rw [List.length_drop] at g3
  rotate_left
  · rw [if_neg (by omega), toldIf, if_neg (by omega), toldString, toldIf, if_neg (by omega), if_neg (by omega)]
    split
    · exact absurd (by assumption) (g4 _)
    · rfl
  rw [g4, toldString, toldIf, if_pos g3]
  dsimp only
  have l1 : ((p.drop 4).drop (4 + cn.length)).length = p.length - (8 + cn.length) := by simp only [List.length_drop]; omega
  rcases num8_cuts _ t _ _ h3 with ⟨g5, g6, rfl⟩ | ⟨g5, g6⟩ <;> dsimp only at * <;> rw [l1] at g5
  rotate_left
  · rw [if_neg (by omega), toldIf, if_neg (by omega), if_neg (by omega)]
    split
    · exact absurd (by assumption) (g6 _)
    · rfl
  rw [g6, toldIf, if_pos (show 9 + cn.length ≤ p.length by omega)]
  dsimp only
  have l2 : (((p.drop 4).drop (4 + cn.length)).drop 1).length = p.length - (9 + cn.length) := by simp only [List.length_drop]; omega
  rcases num32_cuts _ t _ _ h4 with ⟨g7, g8, rfl⟩ | ⟨g7, g8⟩ <;> dsimp only at * <;> rw [l2] at g7
  rotate_left
  · rw [if_neg (show ¬ 13 + cn.length ≤ p.length by omega), if_neg (by omega)]
    split
    · exact absurd (by assumption) (g8 _)
    · rfl
  rw [g8, if_pos (by omega)]
  dsimp only
  have l3 : ((((p.drop 4).drop (4 + cn.length)).drop 1).drop 4).length = p.length - (13 + cn.length) := by simp only [List.length_drop]; omega
  rcases refs_cut h5 with ⟨g9, g10, rfl, g11⟩ | ⟨g9, g10, g11⟩ <;> rw [l3] at g9 g11
  rotate_left
  · rw [g10, g11, if_neg (by omega)]
  rw [g10, g11, if_pos (by omega)]
  dsimp only
  have hn := (readRefs_bytes h5).1
  congr 1
  generalize hq : (((((p.drop 4).drop (4 + cn.length)).drop 1).drop 4).drop (4 * ids.length)) = q at *
  have l4 : q.length = p.length - (13 + cn.length + 4 * ids.length) := by rw [← hq]; simp only [List.length_drop]; omega
  cases hs : (s != 0#8) with
  | false =>
    rw [e6 hs, toldBytes]
    simp
  | true =>
    obtain ⟨h7, h8⟩ := takeN_ok (e5 hs)
    rw [if_pos rfl, toldBytes, ← l4, padTo, ← h8]
    have h9 : c.getService.take q.length = q.take c.getService.length := by
      rcases Nat.le_total q.length c.getService.length with hl | hl
      · have := congrArg (List.take q.length) h7
        rw [List.take_left, List.take_append_of_le_length hl] at this
        rw [← this, List.take_of_length_le hl]
      · have := congrArg (List.take c.getService.length) h7
        rw [List.take_left, List.take_append_of_le_length hl] at this
        rw [this, List.take_of_length_le hl]
    rw [h9, List.length_take]
    congr 2
    omega

end Rbxl

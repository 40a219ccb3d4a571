import Verif.Rbxl.Cut
import Verif.Rbxl.ValuesLemmas
/-!
# Reading fewer bytes: the elements of a property
-/
namespace Rbxl
open Go Spec

/-- Bytes after the last one that is read do not matter. -/
def Tight {α : Type} (f : Bytes → Res (α × Nat)) : Prop :=
  ∀ p t a n, f (p ++ t) = .ok (a, n) → n ≤ p.length → f p = .ok (a, n)

theorem RdGood.tight {α : Type} {k : Nat} {rd : Rd α} (h : RdGood k rd) : Tight (constFrom k rd) := by
  intro p t a n h1 h2
  have hk := constFrom_size h1
  subst hk
  obtain ⟨x, hx⟩ := h p h2
  have h3 : constFrom n rd (p ++ t) = .ok (x, n) := constFrom_ok (by simp; omega) (hx t)
  have h4 := hx []
  rw [List.append_nil] at h4
  rw [constFrom_ok h2 h4, ← h3, h1]

theorem tight_string : Tight stringFrom := by
  intro p t a n h1 h2
  have hn := stringFrom_size h1
  rcases checkLengthArray_cases 1 p with ⟨e, h⟩ | ⟨k, hk, hb, h⟩
  · exfalso
    have h4 : 4 ≤ p.length := by omega
    obtain ⟨v, hv⟩ := rdGood_le32 p h4
    have hv' : ∀ r, readLe32 (p ++ r) = .ok (v, p.drop 4 ++ r) := hv
    have h0 := hv' []; simp only [List.append_nil] at h0
    simp only [checkLengthArray, if_neg (show ¬ p.length < 4 by omega), h0, Res.ok_bind] at h
    simp only [stringFrom, checkLengthArray, List.length_append, if_neg (show ¬ p.length + t.length < 4 by omega), hv', Res.ok_bind] at h1
    split at h
    · rename_i hlt
      split at h1
      · cases h1
      · simp only [Res.pure_eq, Res.ok_bind, Res.ok.injEq, Prod.mk.injEq] at h1
        obtain ⟨rfl, -⟩ := h1
        rw [List.length_take] at hn
        simp only [List.length_append, List.length_drop] at hn
        omega
    · cases h
  · have h0 := h []
    simp only [List.append_nil] at h0
    simp only [stringFrom, h, h0, Res.ok_bind] at h1 ⊢
    rw [List.take_append_of_le_length (by omega)] at h1
    exact h1

theorem Tight.map {α β : Type} {f : Bytes → Res (α × Nat)} (hf : Tight f) (g : α → β) :
    Tight (fun b => do let p ← f b; pure (g p.1, p.2)) := by
  intro p t a n h1 h2
  simp only [Res.bind_eq_ok, Res.pure_eq, Res.ok.injEq, Prod.mk.injEq] at h1 ⊢
  obtain ⟨⟨x, m⟩, g1, rfl, rfl⟩ := h1
  exact ⟨_, hf p t _ _ g1 h2, rfl, rfl⟩

theorem tight_many {α : Type} {k : Nat} {rd : Rd α} (hr : RdGood k rd) (mk : List α → Val) :
    Tight (fun b => (do
      let (b, n) ← checkLengthArray k b
      let (ks, _) ← rdMany rd n b
      pure (mk ks, 4 + k * ks.length) : Res (Val × Nat))) := by
  intro p t a n h1 h2
  simp only [Res.bind_eq_ok, Res.pure_eq, Res.ok.injEq, Prod.mk.injEq] at h1
  obtain ⟨⟨b, m⟩, g1, ⟨ks, r⟩, g2, rfl, rfl⟩ := h1
  dsimp only at g2
  have hl := rdMany_length _ _ _ _ g2
  rcases checkLengthArray_cases k p with ⟨e, h⟩ | ⟨k', hk, hb, h⟩
  · exfalso
    obtain ⟨v, hv⟩ := rdGood_le32 p (by omega)
    have hv' : ∀ r, readLe32 (p ++ r) = .ok (v, p.drop 4 ++ r) := hv
    have h0 := hv' []; simp only [List.append_nil] at h0
    simp only [checkLengthArray, if_neg (show ¬ p.length < 4 by omega), h0, Res.ok_bind] at h
    simp only [checkLengthArray, List.length_append, if_neg (show ¬ p.length + t.length < 4 by omega), hv', Res.ok_bind] at g1
    split at g1
    · cases g1
    · simp only [Res.pure_eq, Res.ok.injEq, Prod.mk.injEq] at g1
      obtain ⟨-, rfl⟩ := g1
      rw [hl] at h2
      rw [if_neg (by omega)] at h
      cases h
  · rw [h] at g1
    simp only [Res.ok.injEq, Prod.mk.injEq] at g1
    obtain ⟨rfl, rfl⟩ := g1
    obtain ⟨x, hx⟩ := hr.many k' (p.drop 4) hk
    have h0 := h []; simp only [List.append_nil] at h0
    have hx0 := hx []; simp only [List.append_nil] at hx0
    have e := (hx t).symm.trans g2
    simp only [Res.ok.injEq, Prod.mk.injEq] at e
    obtain ⟨rfl, -⟩ := e
    simp [h0, hx0]

theorem tight_phys : Tight physFrom := by
  intro p t a n h1 h2
  have hrd : RdGood 20 (do
      let d ← rdLe32
      let f ← rdLe32
      let e ← rdLe32
      let fw ← rdLe32
      let ew ← rdLe32
      pure (d, f, e, fw, ew) : Rd (F32 × F32 × F32 × F32 × F32)) :=
    rdGood_le32.bind (m := 16) fun _ => rdGood_le32.bind (m := 12) fun _ =>
    rdGood_le32.bind (m := 8) fun _ => rdGood_le32.bind (m := 4) fun _ => rdGood_le32.bindPure
  cases p with
  | nil =>
    exfalso
    simp only [physFrom, Res.bind_eq_ok] at h1
    obtain ⟨⟨c, r, k⟩, g1, h1⟩ := h1
    have := (checkLengthCond_size (fun c => by simp only [condSizePhys]; split <;> omega) g1).1
    have : n = k := by
      dsimp only at h1
      split at h1
      · simp only [Res.bind_eq_ok, Res.pure_eq, Res.ok.injEq, Prod.mk.injEq] at h1
        obtain ⟨_, _, _, rfl⟩ := h1; rfl
      · simp only [Res.pure_eq, Res.ok.injEq, Prod.mk.injEq] at h1
        exact h1.2.symm
    simp at h2
    omega
  | cons c p =>
    by_cases hc : c = 0#8
    · subst hc
      simp only [physFrom, List.cons_append, checkLengthCond, condSizePhys] at h1 ⊢
      simp at h1 ⊢
      obtain ⟨rfl, rfl⟩ := h1
      simp
    · simp only [physFrom, List.cons_append, checkLengthCond, condSizePhys, if_neg hc, List.length_append] at h1
      split at h1
      · cases h1
      simp only [Res.ok_bind, if_pos (show c ≠ 0#8 from hc), Res.bind_eq_ok, Res.pure_eq, Res.ok.injEq, Prod.mk.injEq] at h1
      obtain ⟨⟨⟨d, f, e, fw, ew⟩, r⟩, g1, rfl, rfl⟩ := h1
      simp only [List.length_cons] at h2
      obtain ⟨x, hx⟩ := hrd p (by omega)
      have hx0 := hx []; simp only [List.append_nil] at hx0
      have e1 := (hx t).symm.trans g1
      simp only [Res.ok.injEq, Prod.mk.injEq] at e1
      obtain ⟨rfl, -⟩ := e1
      simp only [physFrom, checkLengthCond, condSizePhys, if_neg hc]
      rw [if_neg (by omega)]
      simp only [Res.ok_bind, if_pos (show c ≠ 0#8 from hc), hx0]
      rfl

theorem tight_font : Tight fontFrom := by
  intro p t a n h1 h2
  simp only [fontFrom, Res.bind_eq_ok] at h1
  obtain ⟨⟨s, k⟩, g1, h1⟩ := h1
  dsimp only at h1
  split at h1
  · cases h1
  simp only [Res.bind_eq_ok] at h1
  obtain ⟨⟨w, b2⟩, g2, h1⟩ := h1
  dsimp only at h1
  split at h1
  · cases h1
  simp only [Res.bind_eq_ok, Res.pure_eq, Res.ok.injEq, Prod.mk.injEq] at h1
  obtain ⟨⟨st, b3⟩, g3, ⟨c, k2⟩, g4, rfl, rfl⟩ := h1
  dsimp only at g2 g3 g4 h2
  have f1 := tight_string p t _ _ g1 (by omega)
  obtain ⟨w', hw⟩ := rdGood_le16 (p.drop k) (by simp; omega)
  have hw' : ∀ r, readLe16 (p.drop k ++ r) = .ok (w', (p.drop k).drop 2 ++ r) := hw
  have hw0 := hw' []; simp only [List.append_nil] at hw0
  rw [List.drop_append_of_le_length (by omega), hw'] at g2
  simp only [Res.ok.injEq, Prod.mk.injEq] at g2
  obtain ⟨rfl, rfl⟩ := g2
  obtain ⟨st', hst⟩ := rdGood_u8 ((p.drop k).drop 2) (by simp; omega)
  have hst' : ∀ r, readU8 ((p.drop k).drop 2 ++ r) = .ok (st', ((p.drop k).drop 2).drop 1 ++ r) := hst
  have hst0 := hst' []; simp only [List.append_nil] at hst0
  rw [hst'] at g3
  simp only [Res.ok.injEq, Prod.mk.injEq] at g3
  obtain ⟨rfl, rfl⟩ := g3
  have f4 := tight_string _ t _ _ g4 (by simp; omega)
  simp only [fontFrom, f1, Res.ok_bind]
  rw [if_neg (by simp; omega)]
  simp only [hw0, Res.ok_bind]
  rw [if_neg (by simp; omega)]
  simp only [hst0, Res.ok_bind, f4]
  rfl

theorem tight_value (t : TypeID) (ht : inOrder t = true) : Tight (Val.fromBytes t) := by
  cases t <;> simp only [inOrder, Bool.false_eq_true] at ht
  case string => exact tight_string.map _
  case bool => exact rdGood_u8.bindPure.tight
  case double => exact rdGood_le64.bindPure.tight
  case ray => exact (rdGood_le32.bind (m := 20) fun _ => rdGood_le32.bind (m := 16) fun _ =>
      rdGood_le32.bind (m := 12) fun _ => rdGood_le32.bind (m := 8) fun _ =>
      rdGood_le32.bind (m := 4) fun _ => rdGood_le32.bindPure).tight
  case faces => exact rdGood_u8.bindPure.tight
  case axes => exact rdGood_u8.bindPure.tight
  case vector2int16 => exact (rdGood_le16.bind (m := 2) fun _ => rdGood_le16.bindPure).tight
  case vector3int16 => exact (rdGood_le16.bind (m := 4) fun _ => rdGood_le16.bind (m := 2) fun _ =>
      rdGood_le16.bindPure).tight
  case numberSequence => exact tight_many rdGood_nsk .numberSequence
  case colorSequence => exact tight_many rdGood_csk .colorSequence
  case numberRange => exact (rdGood_le32.bind (m := 4) fun _ => rdGood_le32.bindPure).tight
  case physicalProperties => exact tight_phys
  case font => exact tight_font

theorem fromBytes_elementSize {t : TypeID} (ht : inOrder t = true) {b : Bytes} {v : Val} {n : Nat} (h : Val.fromBytes t b = .ok (v, n)) :
    n = elementSize v := by
  have hty := Props.C56_decode_type _ _ _ _ h
  cases t <;> simp only [inOrder, Bool.false_eq_true] at ht
  case string =>
    simp only [Val.fromBytes, Res.bind_eq_ok, Res.pure_eq, Res.ok.injEq, Prod.mk.injEq] at h
    obtain ⟨⟨s, k⟩, h1, rfl, rfl⟩ := h
    exact stringFrom_size h1
  case font =>
    simp only [Val.fromBytes, fontFrom, Res.bind_eq_ok] at h
    obtain ⟨⟨s, k⟩, h1, h⟩ := h
    have h1 := stringFrom_size h1
    split at h
    · simp at h
    simp only [Res.bind_eq_ok] at h
    obtain ⟨⟨w, b2⟩, h2, h⟩ := h
    split at h
    · simp at h
    simp only [Res.bind_eq_ok, Res.pure_eq, Res.ok.injEq, Prod.mk.injEq] at h
    obtain ⟨⟨st, b3⟩, h3, ⟨c, k2⟩, h4, rfl, rfl⟩ := h
    have h4 := stringFrom_size h4
    simp only [elementSize]; omega
  case numberSequence =>
    simp only [Val.fromBytes, numberSequenceFrom, Res.bind_eq_ok, Res.pure_eq, Res.ok.injEq, Prod.mk.injEq] at h
    obtain ⟨⟨s, k⟩, h1, ⟨ks, _⟩, h2, rfl, rfl⟩ := h
    rfl
  case colorSequence =>
    simp only [Val.fromBytes, colorSequenceFrom, Res.bind_eq_ok, Res.pure_eq, Res.ok.injEq, Prod.mk.injEq] at h
    obtain ⟨⟨s, k⟩, h1, ⟨ks, _⟩, h2, rfl, rfl⟩ := h
    rfl
  case physicalProperties =>
    simp only [Val.fromBytes, physFrom, Res.bind_eq_ok] at h
    obtain ⟨⟨c, b2, k⟩, h1, h⟩ := h
    have hk : k = condSizePhys c := by
      cases b with
      | nil => simp [checkLengthCond] at h1
      | cons x b =>
        simp only [checkLengthCond] at h1
        split at h1
        · cases h1
        · simp only [Res.ok.injEq, Prod.mk.injEq] at h1
          obtain ⟨rfl, -, rfl⟩ := h1; rfl
    dsimp only at h
    split at h <;> rename_i hc
    · simp only [Res.bind_eq_ok, Res.pure_eq, Res.ok.injEq, Prod.mk.injEq] at h
      obtain ⟨_, _, rfl, rfl⟩ := h
      simp only [elementSize, hk, condSizePhys]
      rfl
    · simp only [Res.pure_eq, Res.ok.injEq, Prod.mk.injEq] at h
      obtain ⟨rfl, rfl⟩ := h
      simp only [elementSize, hk, condSizePhys]
      rfl
  all_goals
    simp only [Val.fromBytes] at h
    have := constFrom_size h
    subst this
    cases v <;> simp [Val.type] at hty <;> rfl

theorem elementZero_eq {t : TypeID} (ht : inOrder t = true) {v : Val} (h : v.type = t) : elementZero v = (newValue t).getD default := by
  subst h
  cases v <;> simp only [Val.type, inOrder, Bool.false_eq_true] at ht <;> rfl

theorem elementSize_pos {t : TypeID} (ht : inOrder t = true) {v : Val} (h : v.type = t) : 1 ≤ elementSize v := by
  subst h
  cases v <;> simp only [Val.type, inOrder, Bool.false_eq_true] at ht <;> simp only [elementSize] <;> first | omega | (split <;> omega)

theorem value_cut {t : TypeID} (ht : inOrder t = true) {p t' : Bytes} {v : Val} {n : Nat} (h : Val.fromBytes t (p ++ t') = .ok (v, n)) :
    (elementSize v ≤ p.length ∧ Val.fromBytes t p = .ok (v, elementSize v)) ∨ (p.length < elementSize v ∧ ∀ x, Val.fromBytes t p ≠ .ok x) := by
  have hn := fromBytes_elementSize ht h
  subst hn
  by_cases hl : elementSize v ≤ p.length
  · exact .inl ⟨hl, tight_value t ht p t' _ _ h hl⟩
  · refine .inr ⟨by omega, ?_⟩
    rintro ⟨v', n'⟩ h'
    obtain ⟨g1, g2⟩ := (Val.fromBytes_good t (by rintro rfl; cases ht) p).2 _ _ h'
    rw [g2] at h
    simp only [Res.ok.injEq, Prod.mk.injEq] at h
    omega

theorem toldValues_none : ∀ (l : List Val) (z : Val), (∀ v ∈ l, 1 ≤ elementSize v ∧ elementZero v = z) → toldValues 0 l = List.replicate l.length z
  | [], z, h => rfl
  | v :: l, z, h => by
    rw [toldValues, Nat.zero_sub, toldValues_none l z (fun x hx => h x (List.mem_cons_of_mem _ hx)), List.length_cons, List.replicate_succ,
      toldIf, if_neg (by have := (h v (List.mem_cons_self ..)).1; omega), (h v (List.mem_cons_self ..)).2]

theorem elemsFrom_type {t : TypeID} : ∀ (n i : Nat) (b : Bytes) (vs : List Val) (m : Nat), elemsFrom t i n b = .ok (vs, m) → ∀ v ∈ vs, v.type = t
  | 0, i, b, vs, m, h => by cases h; nofun
  | n + 1, i, b, vs, m, h => by
    simp only [elemsFrom, Res.bind_eq_ok, Res.pure_eq, Res.ok.injEq, Prod.mk.injEq] at h
    obtain ⟨⟨v, k⟩, h1, ⟨vs', m'⟩, h2, rfl, rfl⟩ := h
    have h1' : Val.fromBytes t b = .ok (v, k) := by
      rcases hg : Val.fromBytes t b <;> rw [hg] at h1 <;> cases h1
      rfl
    intro x hx
    rcases List.mem_cons.1 hx with rfl | hx
    · exact Props.C56_decode_type _ _ _ _ h1'
    · exact elemsFrom_type n _ _ _ _ h2 x hx

theorem elems_cut {t : TypeID} (ht : inOrder t = true) : ∀ (n i : Nat) (p t' : Bytes) (vs : List Val) (m : Nat),
    elemsFrom t i n (p ++ t') = .ok (vs, m) → m = elementsSize vs ∧ vs.length = n ∧
    padTo n ((newValue t).getD default) (elemsPart t n p) = toldValues p.length vs ∧
    (m ≤ p.length → elemsFrom t i n p = .ok (vs, m)) ∧ (p.length < m → ∀ x, elemsFrom t i n p ≠ .ok x)
  | 0, i, p, t', vs, m, h => by
    cases h
    exact ⟨rfl, rfl, rfl, fun _ => rfl, fun h => absurd h (by omega)⟩
  | n + 1, i, p, t', vs, m, h => by
    have hty := elemsFrom_type _ _ _ _ _ h
    simp only [elemsFrom, Res.bind_eq_ok, Res.pure_eq, Res.ok.injEq, Prod.mk.injEq] at h
    obtain ⟨⟨v, k⟩, h1, ⟨vs', m'⟩, h2, rfl, rfl⟩ := h
    dsimp only at h2 ⊢
    have h1' : Val.fromBytes t (p ++ t') = .ok (v, k) := by
      rcases hg : Val.fromBytes t (p ++ t') <;> rw [hg] at h1 <;> cases h1
      rfl
    have hk := fromBytes_elementSize ht h1'
    subst hk
    rw [toldValues, elementsSize, List.map_cons, List.sum_cons, ← elementsSize]
    rcases value_cut ht h1' with ⟨g1, g2⟩ | ⟨g1, g2⟩
    · rw [List.drop_append_of_le_length g1] at h2
      obtain ⟨e1, e2, e3, e4, e5⟩ := elems_cut ht n (i + 1) _ t' _ _ h2
      rw [List.length_drop] at e3 e4 e5
      refine ⟨by omega, by rw [List.length_cons, e2], ?_, fun hl => ?_, fun hl => ?_⟩
      · rw [elemsPart, g2, toldIf, if_pos g1, ← e3]
        simp only [padTo, List.length_cons, Nat.add_sub_add_right, List.cons_append]
      · rw [elemsFrom, g2]
        simp only [Res.mapErr, Res.ok_bind, e4 (by omega)]
        rfl
      · rintro x hx
        rw [elemsFrom, g2] at hx
        simp only [Res.mapErr, Res.ok_bind] at hx
        obtain ⟨y, hy, -⟩ := (Res.bind_eq_ok ..).1 hx
        exact e5 (by omega) y hy
    · have hno : ∀ x, elemsFrom t i (n + 1) p ≠ .ok x := by
        intro x hx
        rw [elemsFrom] at hx
        obtain ⟨y, hy, -⟩ := (Res.bind_eq_ok ..).1 hx
        rcases hg : Val.fromBytes t p with z | z | z <;> rw [hg] at hy
        · exact g2 _ hg
        · cases hy
        · cases hy
      have e : ∀ v' ∈ v :: vs', 1 ≤ elementSize v' ∧ elementZero v' = (newValue t).getD default := fun v' hv' =>
        ⟨elementSize_pos ht (hty v' hv'), elementZero_eq ht (hty v' hv')⟩
      have e1 : m' = elementsSize vs' := by
        have := elems_cut ht n (i + 1) ((p ++ t').drop (elementSize v)) [] vs' m' (by rw [List.append_nil]; exact h2)
        exact this.1
      have e2 : vs'.length = n := by
        have := elems_cut ht n (i + 1) ((p ++ t').drop (elementSize v)) [] vs' m' (by rw [List.append_nil]; exact h2)
        exact this.2.1
      refine ⟨by omega, by rw [List.length_cons, e2], ?_, fun hl => absurd hl (by omega), fun _ => hno⟩
      rw [toldIf, if_neg (by omega), show p.length - elementSize v = 0 by omega,
        toldValues_none vs' _ (fun v' hv' => e v' (List.mem_cons_of_mem _ hv')), (e v (List.mem_cons_self ..)).2, e2, elemsPart]
      split
      · exact absurd (by assumption) (g2 _)
      · rfl

theorem plain_cut {t : TypeID} (ht : inOrder t = true) {slack slack' n m : Nat} {spill : Nat → Bytes → Bytes} {p t' r : Bytes} {vs : List Val}
    (h : plainFrom slack t n (p ++ t') = .ok (vs, m, r)) :
    m = elementsSize vs ∧ vs.length = n ∧ r = p ++ t' ∧ plainPart spill t n p = toldValues p.length vs ∧
    (m ≤ p.length → plainFrom slack' t n p = .ok (vs, m, p)) ∧ (p.length < m → ∀ x, plainFrom slack' t n p ≠ .ok x) := by
  have hf : ∀ sl b, plainFrom sl t n b = (elemsFrom t 0 n b >>= fun x => pure (x.1, x.2, b)) := by
    intro sl b
    cases t <;> simp only [inOrder, Bool.false_eq_true] at ht <;> rfl
  have hp : plainPart spill t n p = padTo n ((newValue t).getD default) (elemsPart t n p) := by
    cases t <;> simp only [inOrder, Bool.false_eq_true] at ht <;> rfl
  rw [hf] at h
  simp only [Res.bind_eq_ok, Res.pure_eq, Res.ok.injEq, Prod.mk.injEq] at h
  obtain ⟨⟨vs', m'⟩, h1, rfl, rfl, rfl⟩ := h
  obtain ⟨e1, e2, e3, e4, e5⟩ := elems_cut ht _ _ _ _ _ _ h1
  refine ⟨e1, e2, rfl, hp.trans e3, fun hl => ?_, fun hl x hx => ?_⟩
  · rw [hf, e4 hl]; rfl
  · rw [hf] at hx
    obtain ⟨y, hy, -⟩ := (Res.bind_eq_ok ..).1 hx
    exact e5 hl y hy

theorem toldFlags_values : ∀ (l : List Val) (n : Nat), (∀ v ∈ l, v.type = .bool) →
    (toldValues n l).map (fun v => match v with | .bool x => x | _ => false) = toldFlags n (l.map fun v => match v with | .bool x => x | _ => false)
  | [], n, h => by simp [toldValues, toldFlags]
  | v :: l, n, h => by
    have hv := h v (List.mem_cons_self ..)
    have ih := toldFlags_values l (n - 1) fun x hx => h x (List.mem_cons_of_mem _ hx)
    cases v <;> simp only [Val.type, reduceCtorEq] at hv
    rename_i b
    rw [toldValues, List.map_cons, elementSize, ih]
    simp only [List.map_cons, toldFlags, List.length_cons, List.length_map, toldIf, elementZero]
    cases n with
    | zero => simp [List.replicate_succ]
    | succ n => simp

theorem presentPart_len {n : Nat} {b : Bytes} {ps : List Bool} {m : Nat} (h : presentFrom n b = .ok (ps, m)) : ps.length = n := by
  cases b with
  | nil => cases h
  | cons tb b =>
    simp only [presentFrom] at h
    split at h
    · cases h
    split at h
    · cases h
    simp only [Res.bind_eq_ok, Res.pure_eq, Res.ok.injEq, Prod.mk.injEq] at h
    obtain ⟨⟨vs, m'⟩, h3, rfl, rfl⟩ := h
    rw [List.length_map]
    have := elems_cut (t := .bool) rfl n 0 b [] vs m' (by rw [List.append_nil]; exact h3)
    exact this.2.1

theorem present_cut {n : Nat} {p t : Bytes} {ps : List Bool} {m : Nat} (h : presentFrom n (p ++ t) = .ok (ps, m)) :
    presentPart n p = toldFlags (p.length - 1) ps ∧ ps.length = n := by
  cases p with
  | nil =>
    have : ps.length = n := (presentPart_len h)
    simp only [presentPart, toldFlags, List.length_nil, Nat.zero_sub, List.take_zero, List.nil_append, this, Nat.sub_zero, and_self]
  | cons tb p =>
    simp only [List.cons_append, presentFrom] at h
    split at h
    · cases h
    rename_i h1
    split at h
    · cases h
    rename_i h2
    simp only [Res.bind_eq_ok, Res.pure_eq, Res.ok.injEq, Prod.mk.injEq] at h
    obtain ⟨⟨vs, m'⟩, h3, rfl, rfl⟩ := h
    obtain ⟨e1, e2, e3, e4, e5⟩ := elems_cut (t := .bool) rfl _ _ _ _ _ _ h3
    have hty := elemsFrom_type _ _ _ _ _ h3
    dsimp only
    rw [presentPart, if_neg h1, if_neg h2]
    refine ⟨?_, by rw [List.length_map]; exact e2⟩
    rw [List.length_cons, Nat.add_sub_cancel]
    have hf := toldFlags_values vs p.length hty
    rw [← e3] at hf
    refine Eq.trans ?_ hf
    simp only [padTo, List.map_append, List.length_map, List.map_replicate, newValue, Option.getD_some]
    rfl

theorem plain_type {t : TypeID} (hto : t ≠ .optional) {slack n : Nat} {tb : Byte} {b : Bytes} (h1 : ¬ TypeID.validByte tb = false)
    (h2 : TypeID.ofByte tb = some t) :
    typeArrayFrom slack n (tb :: b) = (plainFrom slack t n b >>= fun x => pure (.plain t x.1, 1 + x.2.1, tb :: x.2.2)) := by
  rw [typeArrayFrom, if_neg h1, h2]
  cases t <;> first | rfl | exact absurd rfl hto

theorem plain_part {t : TypeID} (hto : t ≠ .optional) {spill : Nat → Bytes → Bytes} {slack n : Nat} {tb : Byte} {b : Bytes}
    (h1 : ¬ TypeID.validByte tb = false) (h2 : TypeID.ofByte tb = some t) :
    arrPart spill slack n (tb :: b) = some (.plain t (plainPart spill t n b)) := by
  rw [arrPart, if_neg h1, h2]
  cases t <;> first | rfl | exact absurd rfl hto

theorem plain_arr_cut {spill : Nat → Bytes → Bytes} {slack slack' n m : Nat} {p t r : Bytes} {ty : TypeID} {vs : List Val}
    (hty : inOrder ty = true) (h : typeArrayFrom slack n (p ++ t) = .ok (.plain ty vs, m, r)) :
    m = 1 + elementsSize vs ∧ vs.length = n ∧ arrPart spill slack' n p = toldArray p.length (.plain ty vs) ∧
    r = p ++ t ∧
    (m ≤ p.length → typeArrayFrom slack' n p = .ok (.plain ty vs, m, p)) ∧ (p.length < m → ∀ x, typeArrayFrom slack' n p ≠ .ok x) := by
  have hto : ty ≠ .optional := by rintro rfl; cases hty
  obtain ⟨b, hb⟩ : ∃ b, p ++ t = b := ⟨_, rfl⟩
  rw [hb] at h
  cases b with
  | nil => cases h
  | cons tb b =>
    by_cases hv : TypeID.validByte tb = false
    · rw [typeArrayFrom, if_pos hv] at h
      cases h
    cases ho : TypeID.ofByte tb with
    | none => rw [typeArrayFrom, if_neg hv, ho] at h; cases h
    | some ty' =>
      have hty' : ty' = ty ∧ ty' ≠ .optional := by
        cases ty'
        case optional =>
          exfalso
          rw [typeArrayFrom, if_neg hv, ho] at h
          simp only [Res.bind_eq_ok, Res.pure_eq, Res.ok.injEq, Prod.mk.injEq] at h
          obtain ⟨x, -, y, -, h, -⟩ := h
          cases h
        all_goals
          rw [plain_type (by decide) hv ho] at h
          simp only [Res.bind_eq_ok, Res.pure_eq, Res.ok.injEq, Prod.mk.injEq, Arr.plain.injEq] at h
          obtain ⟨x, -, ⟨h, -⟩, -⟩ := h
          exact ⟨h, by decide⟩
      obtain ⟨rfl, -⟩ := hty'
      rw [plain_type hto hv ho] at h
      simp only [Res.bind_eq_ok, Res.pure_eq, Res.ok.injEq, Prod.mk.injEq, Arr.plain.injEq, true_and] at h
      obtain ⟨⟨vs', m', r'⟩, h, rfl, rfl, rfl⟩ := h
      dsimp only at *
      cases p with
      | nil =>
        rw [List.nil_append] at hb
        subst hb
        obtain ⟨e1, e2, e3, -⟩ := plain_cut (slack' := slack') (spill := spill) (p := []) hty h
        refine ⟨by omega, e2, rfl, by rw [e3]; rfl, fun hl => absurd hl (by simp), fun _ x hx => by cases hx⟩
      | cons tb' p =>
        rw [List.cons_append] at hb
        cases hb
        obtain ⟨e1, e2, e3, e4, e5, e6⟩ := plain_cut (slack' := slack') (spill := spill) hty h
        rw [plain_part hto hv ho, e4, toldArray, List.length_cons, if_pos (by omega), Nat.add_sub_cancel]
        refine ⟨by omega, e2, rfl, by rw [e3]; rfl, fun hl => ?_, fun hl x hx => ?_⟩
        · rw [plain_type hto hv ho, e5 (by omega)]; rfl
        · rw [plain_type hto hv ho] at hx
          obtain ⟨y, hy, -⟩ := (Res.bind_eq_ok ..).1 hx
          exact e6 (by omega) y hy

theorem arr_cut {spill : Nat → Bytes → Bytes} {slack slack' n m : Nat} {p t r : Bytes} {a : Arr}
    (ha : InOrderArray a) (h : typeArrayFrom slack n (p ++ t) = .ok (a, m, r)) : arrPart spill slack' n p = toldArray p.length a := by
  match a, ha with
  | .plain ty vs, ha => exact (plain_arr_cut ha h).2.2.1
  | .optional (.plain ty vs) present, ha =>
    cases p with
    | nil => rfl
    | cons tb p =>
      rw [List.cons_append, typeArrayFrom] at h
      split at h
      · cases h
      rename_i hv
      cases ho : TypeID.ofByte tb with
      | none => rw [ho] at h; cases h
      | some ty' =>
        have e : ty' = .optional := by
          cases ty' <;> first | rfl | skip
          all_goals
            exfalso
            rw [ho] at h
            simp only [Res.bind_eq_ok, Res.pure_eq, Res.ok.injEq, Prod.mk.injEq] at h
            obtain ⟨x, -, h, -⟩ := h
            cases h
        subst e
        rw [ho] at h
        simp only [Res.bind_eq_ok, Res.pure_eq, Res.ok.injEq, Prod.mk.injEq, Arr.optional.injEq] at h
        obtain ⟨⟨values, nn, rest⟩, h1, ⟨ps, mm⟩, h2, ⟨rfl, rfl⟩, -⟩ := h
        dsimp only at *
        obtain ⟨e1, e2, e3, e4, e5, e6⟩ := plain_arr_cut (spill := spill) (slack' := slack') ha h1
        subst e4
        have hps := presentPart_len h2
        rw [arrPart, if_neg hv, ho]
        dsimp only
        rw [toldArray, List.length_cons, if_neg (by omega)]
        by_cases hl : nn ≤ p.length
        · rw [e5 hl]
          dsimp only
          rw [if_neg (by omega)]
          rw [List.drop_append_of_le_length hl] at h2
          rw [(present_cut h2).1, List.length_drop]
          have e7 : toldArray p.length (.plain ty vs) = some (.plain ty vs) := by
            rw [← e3]
            exact arrPart_ok _ (e5 hl)
          rw [toldArray, if_pos (by omega)] at e7
          simp only [Option.some.injEq, Arr.plain.injEq, true_and] at e7
          rw [show p.length + 1 - 2 = p.length - 1 by omega, e7, show p.length + 1 - 3 - elementsSize vs = p.length - nn - 1 by omega]
        · have e8 : List.replicate n false = toldFlags (p.length + 1 - 3 - elementsSize vs) ps := by
            rw [show p.length + 1 - 3 - elementsSize vs = 0 by omega, toldFlags, hps]
            rfl
          have e9 : arrPart spill slack' n p = toldArray p.length (.plain ty vs) := e3
          rw [toldArray] at e9
          split
          · exact absurd (by assumption) (e6 (by omega) _)
          · split at e9
            · rw [e9]
              dsimp only
              rw [if_neg (by omega), e8]
              rfl
            · rw [e9]
              dsimp only
              rw [if_pos (by omega), hps]

theorem prop_cut {spill : Nat → Bytes → Bytes} {slack slack' : Bytes → Nat} {groups : Map (BitVec 32) (Nat × InstChunk)} {p t r : Bytes}
    {c : PropChunk} (h : decodeProp slack groups (p ++ t) = .ok (c, r)) :
    (partProp spill slack' groups p).classID = toldIf p.length 4 0 c.classID ∧
    (partProp spill slack' groups p).name = toldString (p.length - 4) c.name ∧
    (c.props = none → (partProp spill slack' groups p).props = none) ∧
    (∀ a, c.props = some a → InOrderArray a →
      (partProp spill slack' groups p).props = toldArray (p.length - (8 + c.name.length)) a) := by
  simp only [decodeProp, rd_bind] at h
  obtain ⟨⟨id, r1⟩, h1, h⟩ := (Res.bind_eq_ok ..).1 h
  dsimp only at h
  cases hg : Map.get? groups id with
  | none => rw [hg] at h; cases h
  | some g =>
    obtain ⟨k, inst⟩ := g
    rw [hg] at h
    simp only [rd_bind, Res.bind_eq_ok] at h
    obtain ⟨⟨name, r2⟩, h2, ⟨raw, r3⟩, h3, h⟩ := h
    simp only [takeAll, Res.ok.injEq, Prod.mk.injEq] at h3
    dsimp only at *
    obtain ⟨rfl, rfl⟩ := h3
    have hc : c.classID = id ∧ c.name = name ∧
        (c.props = none → r2 = []) ∧
        ∀ a, c.props = some a → ∃ m r, typeArrayFrom (slack r2) inst.ids.length r2 = .ok (a, m, r) := by
      split at h
      · rename_i h0
        cases h
        exact ⟨rfl, rfl, fun _ => h0, nofun⟩
      · simp only [rd_bind, liftRes, Res.bind_eq_ok] at h
        obtain ⟨⟨⟨a, m, r'⟩, r''⟩, ⟨⟨x, y, z⟩, h3, h4⟩, h⟩ := h
        cases h4
        cases h
        exact ⟨rfl, rfl, nofun, fun a ha => by cases ha; exact ⟨_, _, h3⟩⟩
    obtain ⟨e1, e2, e0, e3⟩ := hc
    rw [e1, e2]
    unfold partProp
    have told0 : ∀ a, toldArray 0 a = none := by
      intro a
      match a with
      | .plain _ _ => rfl
      | .optNil _ => rfl
      | .optional (.plain _ _) _ => rfl
      | .optional (.optNil _) _ => rfl
      | .optional (.optional _ _) _ => rfl
    rcases num32_cuts p t _ _ h1 with ⟨g1, g2, rfl⟩ | ⟨g1, g2⟩ <;> dsimp only at *
    rotate_left
    · rw [toldIf, if_neg (by omega), toldString, toldIf, if_neg (by omega)]
      split
      · exact absurd (by assumption) (g2 _)
      · refine ⟨rfl, rfl, fun _ => rfl, fun a _ _ => ?_⟩
        rw [show p.length - (8 + name.length) = 0 by omega, told0]
    rw [g2, toldIf, if_pos g1]
    dsimp only
    rw [hg]
    dsimp only
    rcases readString_cuts _ t _ _ h2 with ⟨g3, g4, rfl⟩ | ⟨g3, g4⟩ <;> dsimp only at * <;> rw [List.length_drop] at g3
    rotate_left
    · rw [toldString, toldIf, if_neg (by omega)]
      split
      · exact absurd (by assumption) (g4 _)
      · refine ⟨rfl, rfl, fun _ => rfl, fun a _ _ => ?_⟩
        rw [show p.length - (8 + name.length) = 0 by omega, told0]
    rw [g4, toldString, toldIf, if_pos g3]
    dsimp only
    generalize hq : (p.drop 4).drop (4 + name.length) = q at *
    have hl : q.length = p.length - (8 + name.length) := by rw [← hq]; simp only [List.length_drop]; omega
    refine ⟨rfl, rfl, fun hp => ?_, fun a ha hio => ?_⟩
    · rw [if_pos (List.append_eq_nil_iff.1 (e0 hp)).1]
    · obtain ⟨m, r, h3⟩ := e3 a ha
      rw [← hl]
      split
      · rename_i h0
        subst h0
        exact (told0 a).symm
      · exact arr_cut hio h3

end Rbxl

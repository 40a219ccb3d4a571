import Verif.Spec.DecodePanics
import Verif.Rbxl.NoPanic
/-!
# Exactly which arrays make the decoder panic
-/
namespace Rbxl
open Go Rbxfile Spec

theorem rdGood_ok {α : Type} {k : Nat} {rd : Rd α} (h : RdGood k rd) {b : Bytes} (hb : k ≤ b.length) :
    ∃ a, rd b = .ok (a, b.drop k) := by
  obtain ⟨a, ha⟩ := h b hb
  exact ⟨a, by simpa using ha []⟩

/-- Reading the rotations gives an error, or `n` of them and what follows them. -/
def HeadsOk {α : Type} (big n : Nat) (b : Bytes) (x : Res (List α × Bytes × Nat)) : Prop :=
  (∃ hs r m, x = .ok (hs, r, m) ∧ hs.length = n ∧ afterRotations big n b = some r) ∨
  ((∃ e, x = .err e) ∧ afterRotations big n b = none)

theorem cframeHeads_ok : ∀ (n i : Nat) (b : Bytes), HeadsOk 36 n b (cframeHeads i n b) := by
  intro n
  induction n with
  | zero => intro i b; exact .inl ⟨[], b, 0, rfl, rfl, rfl⟩
  | succ n ih =>
    intro i b
    cases b with
    | nil => exact .inr ⟨⟨_, rfl⟩, rfl⟩
    | cons c r =>
      have next : ∀ (r' : Bytes) (h : Byte × Rot) (k : Nat), afterRotations 36 (n + 1) (c :: r) = afterRotations 36 n r' →
          HeadsOk 36 (n + 1) (c :: r) (do
            let (hs, b, m) ← cframeHeads (i + 1) n r'
            pure (h :: hs, b, k + m)) := by
        intro r' h k e
        rcases ih (i + 1) r' with ⟨hs, q, m, h1, h2, h3⟩ | ⟨⟨x, h1⟩, h2⟩
        · rw [h1]
          exact .inl ⟨_, _, _, rfl, by simp [h2], by rw [e, h3]⟩
        · rw [h1]
          exact .inr ⟨⟨_, rfl⟩, by rw [e, h2]⟩
      simp only [cframeHeads, checkLengthCond, condSizeCFrame]
      by_cases hc : c = 0#8
      · subst hc
        by_cases hl : 36 + 12 ≤ r.length
        · simp only [if_true]
          rw [if_neg (by omega)]
          simp only [Res.mapErr_ok, Res.ok_bind, if_true]
          obtain ⟨a, ha⟩ := rdGood_ok rdGood_rot (b := r) (by omega)
          rw [ha]
          simp only [Res.ok_bind, Res.pure_eq]
          exact next _ _ _ (by simp [afterRotations, hl])
        · simp only [if_true]
          rw [if_pos (by omega)]
          exact .inr ⟨⟨_, rfl⟩, by simp [afterRotations]; omega⟩
      · by_cases hl : 12 ≤ r.length
        · simp only [if_neg hc]
          rw [if_neg (by omega)]
          simp only [Res.mapErr_ok, Res.ok_bind, if_neg hc, Res.pure_eq]
          exact next _ _ _ (by simp [afterRotations, hl, hc])
        · simp only [if_neg hc]
          rw [if_pos (by omega)]
          exact .inr ⟨⟨_, rfl⟩, by simp [afterRotations, hc]; omega⟩

theorem cframeQuatHeads_ok : ∀ (n i : Nat) (b : Bytes), HeadsOk 16 n b (cframeQuatHeads i n b) := by
  intro n
  induction n with
  | zero => intro i b; exact .inl ⟨[], b, 0, rfl, rfl, rfl⟩
  | succ n ih =>
    intro i b
    cases b with
    | nil => exact .inr ⟨⟨_, rfl⟩, rfl⟩
    | cons c r =>
      have next : ∀ (r' : Bytes) (h : Byte × F32 × F32 × F32 × F32) (k : Nat),
          afterRotations 16 (n + 1) (c :: r) = afterRotations 16 n r' →
          HeadsOk 16 (n + 1) (c :: r) (do
            let (hs, b, m) ← cframeQuatHeads (i + 1) n r'
            pure (h :: hs, b, k + m)) := by
        intro r' h k e
        rcases ih (i + 1) r' with ⟨hs, q, m, h1, h2, h3⟩ | ⟨⟨x, h1⟩, h2⟩
        · rw [h1]
          exact .inl ⟨_, _, _, rfl, by simp [h2], by rw [e, h3]⟩
        · rw [h1]
          exact .inr ⟨⟨_, rfl⟩, by rw [e, h2]⟩
      simp only [cframeQuatHeads, checkLengthCond, condSizeCFrameQuat]
      by_cases hc : c = 0#8
      · subst hc
        by_cases hl : 16 + 12 ≤ r.length
        · simp only [if_true]
          rw [if_neg (by omega)]
          simp only [Res.mapErr_ok, Res.ok_bind, if_true]
          obtain ⟨a, ha⟩ := rdGood_ok rdGood_quat (b := r) (by omega)
          rw [ha]
          simp only [Res.ok_bind, Res.pure_eq]
          exact next _ _ _ (by simp [afterRotations, hl])
        · simp only [if_true]
          rw [if_pos (by omega)]
          exact .inr ⟨⟨_, rfl⟩, by simp [afterRotations]; omega⟩
      · by_cases hl : 12 ≤ r.length
        · simp only [if_neg hc]
          rw [if_neg (by omega)]
          simp only [Res.mapErr_ok, Res.ok_bind, if_neg hc, Res.pure_eq]
          exact next _ _ _ (by simp [afterRotations, hl, hc])
        · simp only [if_neg hc]
          rw [if_pos (by omega)]
          exact .inr ⟨⟨_, rfl⟩, by simp [afterRotations, hc]; omega⟩

theorem positionsFrom_ok : ∀ (n i : Nat) (b : Bytes), positionsFrom i n b ≠ .panic ∧
    ∀ ps k, positionsFrom i n b = .ok (ps, k) → ps.length = n := by
  intro n
  induction n with
  | zero => intro i b; simp [positionsFrom]
  | succ n ih =>
    intro i b
    simp only [positionsFrom]
    have hg := (fromGood_vec3 b).1
    rcases hv : vec3From b with ⟨v, nn⟩ | e | _
    · obtain ⟨h1, h2⟩ := ih (i + 1) (b.drop nn)
      simp only [Res.mapErr_ok, Res.ok_bind]
      rcases he : positionsFrom (i + 1) n (b.drop nn) with ⟨vs, m⟩ | e | _
      · have h3 := h2 _ _ he
        simp only [Res.ok_bind, Res.pure_eq, Res.ok.injEq, Prod.mk.injEq]
        refine ⟨by simp, ?_⟩
        rintro vs' m' ⟨rfl, rfl⟩
        simp [h3]
      · simp
      · exact absurd he h1
    · simp
    · exact absurd hv hg

theorem deinterleavePrefix_panic (slack : Nat) (b : Bytes) (n : Nat) :
    deinterleavePrefix slack b n = .panic ↔ b.length + slack < 12 * n := by
  simp only [deinterleavePrefix]
  split
  · refine ⟨fun h => ?_, fun h => by omega⟩
    exact absurd h (Res.bind_ne_panic (deinterleave_ne_panic _ _) fun _ _ => by simp)
  split
  · exact ⟨nofun, fun h => by omega⟩
  · exact ⟨fun _ => by omega, fun _ => rfl⟩

/-- The loops of the two CFrame arrays. -/
theorem cframes_from {α : Type} {big slack n : Nat} {b : Bytes} {x : Res (List α × Bytes × Nat)} (h : HeadsOk big n b x)
    (k : List α → List Vec3 → List Val) (hk : ∀ hs ps, hs.length = n → ps.length = n → (k hs ps).length = n)
    (out : Nat → Nat → Bytes → Nat × Bytes) :
    ((do
      let (hs, r, m) ← x
      let r' ← deinterleavePrefix slack r n
      let (ps, q) ← positionsFrom 0 n r'
      pure (k hs ps, out m q r') : Res (List Val × Nat × Bytes)) = .panic ↔
        ∃ r, afterRotations big n b = some r ∧ r.length + slack < 12 * n) ∧
    ∀ vs o, (do
      let (hs, r, m) ← x
      let r' ← deinterleavePrefix slack r n
      let (ps, q) ← positionsFrom 0 n r'
      pure (k hs ps, out m q r') : Res (List Val × Nat × Bytes)) = .ok (vs, o) →
      vs.length = n ∧ ∃ hs ps, vs = k hs ps := by
  rcases h with ⟨hs, r, m, rfl, h2, h3⟩ | ⟨⟨e, rfl⟩, h2⟩
  · simp only [Res.ok_bind]
    have hd := deinterleavePrefix_panic slack r n
    rcases hx : deinterleavePrefix slack r n with r' | e | _
    · rw [hx] at hd
      simp only [Res.ok_bind]
      obtain ⟨p1, p2⟩ := positionsFrom_ok n 0 r'
      rcases hp : positionsFrom 0 n r' with ⟨ps, q⟩ | e | _
      · simp only [Res.ok_bind, Res.pure_eq]
        refine ⟨⟨nofun, ?_⟩, ?_⟩
        · rintro ⟨r2, g1, g2⟩
          rw [h3] at g1
          cases g1
          cases hd.2 g2
        · intro vs o e
          simp only [Res.ok.injEq, Prod.mk.injEq] at e
          obtain ⟨rfl, rfl⟩ := e
          exact ⟨hk _ _ h2 (p2 _ _ hp), _, _, rfl⟩
      · refine ⟨⟨nofun, ?_⟩, nofun⟩
        rintro ⟨r2, g1, g2⟩
        rw [h3] at g1
        cases g1
        cases hd.2 g2
      · exact absurd hp p1
    · rw [hx] at hd
      refine ⟨⟨nofun, ?_⟩, nofun⟩
      rintro ⟨r2, g1, g2⟩
      rw [h3] at g1
      cases g1
      cases hd.2 g2
    · rw [hx] at hd
      exact ⟨⟨fun _ => ⟨r, h3, hd.1 rfl⟩, fun _ => rfl⟩, nofun⟩
  · exact ⟨⟨nofun, by rintro ⟨r, h, _⟩; rw [h2] at h; cases h⟩, nofun⟩

theorem plainFrom_cframe (slack n : Nat) (b : Bytes) :
    (plainFrom slack .cframe n b = .panic ↔ ∃ r, afterRotations 36 n b = some r ∧ r.length + slack < 12 * n) ∧
    ∀ vs m b', plainFrom slack .cframe n b = .ok (vs, m, b') → vs.length = n ∧ Typed .cframe vs := by
  obtain ⟨h1, h2⟩ := cframes_from (slack := slack) (cframeHeads_ok n 0 b)
    (fun hs ps => (hs.zip ps).map (fun x => .cframe x.1.1 x.1.2 x.2)) (by intro hs ps h1 h2; simp [h1, h2])
    (fun m k r' => (m + k, b.take m ++ r'))
  refine ⟨h1, ?_⟩
  intro vs m b' e
  obtain ⟨g1, hs, ps, g2⟩ := h2 vs (m, b') e
  refine ⟨g1, ?_⟩
  subst g2
  intro v hv
  obtain ⟨x, _, rfl⟩ := List.mem_map.1 hv
  rfl

theorem plainFrom_cframeQuat (slack n : Nat) (b : Bytes) :
    (plainFrom slack .cframeQuat n b = .panic ↔ ∃ r, afterRotations 16 n b = some r ∧ r.length + slack < 12 * n) ∧
    ∀ vs m b', plainFrom slack .cframeQuat n b = .ok (vs, m, b') → vs.length = n ∧ Typed .cframeQuat vs := by
  obtain ⟨h1, h2⟩ := cframes_from (slack := slack) (cframeQuatHeads_ok n 0 b)
    (fun hs ps => (hs.zip ps).map (fun x => .cframeQuat x.1.1 x.1.2.1 x.1.2.2.1 x.1.2.2.2.1 x.1.2.2.2.2 x.2))
    (by intro hs ps h1 h2; simp [h1, h2]) (fun m k r' => (m + k, b.take m ++ r'))
  refine ⟨h1, ?_⟩
  intro vs m b' e
  obtain ⟨g1, hs, ps, g2⟩ := h2 vs (m, b') e
  refine ⟨g1, ?_⟩
  subst g2
  intro v hv
  obtain ⟨x, _, rfl⟩ := List.mem_map.1 hv
  rfl

theorem presentFrom_ok (n : Nat) (b : Bytes) : presentFrom n b ≠ .panic ∧
    ∀ ps m, presentFrom n b = .ok (ps, m) → ps.length = n := by
  cases b with
  | nil => simp [presentFrom]
  | cons tb b =>
    simp only [presentFrom]
    split
    · simp
    split
    · simp
    obtain ⟨h1, h2⟩ := elemsFrom_ok (t := .bool) (by simp) n 0 b
    rcases he : elemsFrom .bool 0 n b with ⟨vs, m⟩ | e | _
    · simp only [Res.ok_bind, Res.pure_eq]
      refine ⟨nofun, ?_⟩
      intro ps m' e
      simp only [Res.ok.injEq, Prod.mk.injEq] at e
      obtain ⟨rfl, rfl⟩ := e
      simp [(h2 _ _ he).1]
    · simp
    · exact absurd he h1

/-- The arrays that the decoder makes for `n` instances. -/
def ArrOk (n : Nat) : Arr → Prop
  | .plain t vs => vs.length = n ∧ Typed t vs
  | .optNil _ => False
  | .optional values present => ArrOk n values ∧ present.length = n

theorem ArrOk.len {n : Nat} {a : Arr} (h : ArrOk n a) : a.len = n := by
  induction a with
  | plain t vs => exact h.1
  | optNil p => exact h.elim
  | optional v p ih => exact ih h.1

theorem typeArrayFrom_exact (slack n : Nat) : ∀ b : Bytes,
    (typeArrayFrom slack n b = .panic ↔ CutPositions slack n b) ∧
    ∀ a m b', typeArrayFrom slack n b = .ok (a, m, b') → ArrOk n a := by
  intro b
  induction b with
  | nil => simp [typeArrayFrom, CutPositions]
  | cons tb rest ih =>
    simp only [typeArrayFrom, CutPositions]
    have ids := Props.C56_ids tb
    split
    · rename_i hv
      have no : ∀ t : TypeID, tb ≠ t.toByte := fun t h => by
        have := ids.1.2 ⟨t, h.symm⟩
        rw [hv] at this; cases this
      rw [if_neg (show tb ≠ 0x1E#8 from no .optional), if_neg (show tb ≠ 0x10#8 from no .cframe),
        if_neg (show tb ≠ 0x11#8 from no .cframeQuat)]
      simp
    rename_i hval
    obtain ⟨t, h⟩ := ids.1.1 (by simpa using hval)
    rw [ids.2.1 t h]
    subst h
    by_cases hs : SafeType t
    · have hp := plainFrom_ok (slack := slack) hs n rest
      have e : ¬ CutPositions slack n (t.toByte :: rest) := by
        obtain ⟨h1, h2, h3⟩ := hs
        cases t <;> first | contradiction | (simp [CutPositions, TypeID.toByte]; done)
      simp only [CutPositions] at e
      refine ⟨⟨fun h => ?_, fun h => absurd h e⟩, ?_⟩
      · exfalso
        revert h
        cases t <;> first | exact absurd rfl hs.2.2 | exact Res.bind_ne_panic hp.1 fun _ _ => by simp
      · intro a m b' h
        have : (plainFrom slack t n rest >>= fun y => (pure (.plain t y.1, 1 + y.2.1, t.toByte :: y.2.2) : Res (Arr × Nat × Bytes))) =
            .ok (a, m, b') := by
          cases t <;> first | exact absurd rfl hs.2.2 | exact h
        obtain ⟨⟨vs, m', b2⟩, g1, g2⟩ := (Res.bind_eq_ok ..).1 this
        simp only [Res.pure_eq, Res.ok.injEq, Prod.mk.injEq] at g2
        obtain ⟨rfl, _, _⟩ := g2
        exact hp.2 _ _ _ g1
    · have ht : t = .cframe ∨ t = .cframeQuat ∨ t = .optional := by
        simp only [SafeType] at hs
        cases t <;> simp_all
      have plain : ∀ (x : Res (List Val × Nat × Bytes)) (P : Prop) (t : TypeID) (tb : Byte), (x = .panic ↔ P) ∧
          (∀ vs m b', x = .ok (vs, m, b') → vs.length = n ∧ Typed t vs) →
          ((x >>= fun y => (pure (.plain t y.1, 1 + y.2.1, tb :: y.2.2) : Res (Arr × Nat × Bytes))) = .panic ↔ P) ∧
          ∀ a m b', (x >>= fun y => (pure (.plain t y.1, 1 + y.2.1, tb :: y.2.2) : Res (Arr × Nat × Bytes))) =
            .ok (a, m, b') → ArrOk n a := by
        intro x P t tb ⟨h1, h2⟩
        rcases x with ⟨vs, m, b'⟩ | e | _
        · refine ⟨⟨nofun, fun h => by cases h1.2 h⟩, ?_⟩
          intro a m' b2 e
          simp only [Res.ok_bind, Res.pure_eq, Res.ok.injEq, Prod.mk.injEq] at e
          obtain ⟨rfl, _, _⟩ := e
          exact h2 _ _ _ rfl
        · exact ⟨⟨nofun, fun h => by cases h1.2 h⟩, nofun⟩
        · exact ⟨⟨fun _ => h1.1 rfl, fun _ => rfl⟩, nofun⟩
      rcases ht with rfl | rfl | rfl
      · exact plain _ _ _ _ (plainFrom_cframe slack n rest)
      · exact plain _ _ _ _ (plainFrom_cframeQuat slack n rest)
      · simp only [TypeID.toByte, if_true]
        rcases hx : typeArrayFrom slack n rest with ⟨a, m, b'⟩ | e | _
        · rw [hx] at ih
          simp only [Res.ok_bind]
          obtain ⟨p1, p2⟩ := presentFrom_ok n (b'.drop m)
          rcases hp : presentFrom n (b'.drop m) with ⟨ps, k⟩ | e | _
          · refine ⟨⟨nofun, fun h => by cases ih.1.2 h⟩, ?_⟩
            intro a' m' b2 e
            simp only [Res.ok_bind, Res.pure_eq, Res.ok.injEq, Prod.mk.injEq] at e
            obtain ⟨rfl, _, _⟩ := e
            exact ⟨ih.2 _ _ _ rfl, p2 _ _ hp⟩
          · exact ⟨⟨nofun, fun h => by cases ih.1.2 h⟩, nofun⟩
          · exact absurd hp p1
        · rw [hx] at ih
          exact ⟨⟨nofun, fun h => by cases ih.1.2 h⟩, nofun⟩
        · rw [hx] at ih
          exact ⟨⟨fun _ => ih.1.1 rfl, fun _ => rfl⟩, nofun⟩

end Rbxl

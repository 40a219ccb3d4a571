import Verif.Spec.Size
import Verif.Rbxl.NoPanic
import Verif.Rbxl.PanicArrays
/-!
# What the binary decoder builds is no larger than what it read
-/
namespace Rbxl
open Go Rbxfile Spec

/-! ### values -/

/-- The size of a value of the format. -/
def valSize : Val → Nat
  | .string s => 1 + s.length
  | .font f _ _ c => 1 + f.length + c.length
  | .numberSequence ks => 1 + ks.length
  | .colorSequence ks => 1 + ks.length
  | _ => 1

theorem decodeValue_size {ρ : Type} (quat : Quat) (v : Val) (x : Value ρ) (h : decodeValue quat v = some x) :
    valueSize x = valSize v := by
  cases v <;> simp only [decodeValue, Option.some.injEq, reduceCtorEq] at h <;> subst h <;> simp [valueSize, valSize]

theorem stringFrom_size {b s : Bytes} {n : Nat} (h : stringFrom b = .ok (s, n)) : n = 4 + s.length := by
  simp only [stringFrom, Res.bind_eq_ok, Res.pure_eq, Res.ok.injEq, Prod.mk.injEq] at h
  obtain ⟨⟨r, k⟩, _, rfl, rfl⟩ := h
  rfl

theorem constFrom_size {α : Type} {k : Nat} {rd : Rd α} {b : Bytes} {v : α} {n : Nat}
    (h : constFrom k rd b = .ok (v, n)) : n = k := by
  simp only [constFrom] at h
  split at h
  · simp at h
  · simp only [Res.bind_eq_ok, Res.pure_eq, Res.ok.injEq, Prod.mk.injEq] at h
    obtain ⟨_, _, _, rfl⟩ := h; rfl

theorem checkLengthCond_size {cs : Byte → Nat} (hcs : ∀ c, 1 ≤ cs c) {b : Bytes} {c : Byte} {r : Bytes} {n : Nat}
    (h : checkLengthCond cs b = .ok (c, r, n)) : 1 ≤ n ∧ b = c :: r := by
  cases b with
  | nil => simp [checkLengthCond] at h
  | cons x b =>
    simp only [checkLengthCond] at h
    split at h
    · simp at h
    · simp only [Res.ok.injEq, Prod.mk.injEq] at h
      obtain ⟨rfl, rfl, rfl⟩ := h
      exact ⟨hcs _, rfl⟩

/-- Every value takes up at least as many bytes as its size. -/
theorem fromBytes_size {t : TypeID} {b : Bytes} {v : Val} {n : Nat} (h : Val.fromBytes t b = .ok (v, n)) :
    valSize v ≤ n := by
  have hty := Props.C56_decode_type _ _ _ _ h
  have small : valSize v = 1 → 1 ≤ n → valSize v ≤ n := by omega
  cases t
  case string =>
    simp only [Val.fromBytes, Res.bind_eq_ok, Res.pure_eq, Res.ok.injEq, Prod.mk.injEq] at h
    obtain ⟨⟨s, k⟩, h1, rfl, rfl⟩ := h
    have := stringFrom_size h1
    simp only [valSize]; omega
  case font =>
    simp only [Val.fromBytes, fontFrom, Res.bind_eq_ok] at h
    obtain ⟨⟨s, k⟩, h1, h⟩ := h
    have h1 := stringFrom_size h1
    split at h
    · simp at h
    simp only [Res.bind_eq_ok] at h
    obtain ⟨⟨w, b2⟩, h2, h⟩ := h
    split at h
    · simp at h
    simp only [Res.bind_eq_ok, Res.pure_eq, Res.ok.injEq, Prod.mk.injEq] at h
    obtain ⟨⟨st, b3⟩, h3, ⟨c, k2⟩, h4, rfl, rfl⟩ := h
    have h4 := stringFrom_size h4
    simp only [valSize]; omega
  case numberSequence =>
    simp only [Val.fromBytes, numberSequenceFrom, Res.bind_eq_ok, Res.pure_eq, Res.ok.injEq, Prod.mk.injEq] at h
    obtain ⟨⟨s, k⟩, h1, ⟨ks, _⟩, h2, rfl, rfl⟩ := h
    simp only [valSize]; omega
  case colorSequence =>
    simp only [Val.fromBytes, colorSequenceFrom, Res.bind_eq_ok, Res.pure_eq, Res.ok.injEq, Prod.mk.injEq] at h
    obtain ⟨⟨s, k⟩, h1, ⟨ks, _⟩, h2, rfl, rfl⟩ := h
    simp only [valSize]; omega
  all_goals
    refine small (by cases v <;> simp [Val.type] at hty <;> rfl) ?_
    simp only [Val.fromBytes] at h
  case cframe =>
    simp only [cframeFrom, Res.bind_eq_ok] at h
    obtain ⟨⟨c, b2, k⟩, h1, h⟩ := h
    have := (checkLengthCond_size (fun c => by simp only [condSizeCFrame]; split <;> omega) h1).1
    split at h <;> simp only [Res.bind_eq_ok, Res.pure_eq, Res.ok.injEq, Prod.mk.injEq] at h
    · obtain ⟨_, _, _, _, _, rfl⟩ := h; exact this
    · obtain ⟨_, _, _, rfl⟩ := h; exact this
  case cframeQuat =>
    simp only [cframeQuatFrom, Res.bind_eq_ok] at h
    obtain ⟨⟨c, b2, k⟩, h1, h⟩ := h
    have := (checkLengthCond_size (fun c => by simp only [condSizeCFrameQuat]; split <;> omega) h1).1
    split at h <;> simp only [Res.bind_eq_ok, Res.pure_eq, Res.ok.injEq, Prod.mk.injEq] at h
    · obtain ⟨_, _, _, _, _, rfl⟩ := h; exact this
    · obtain ⟨_, _, _, rfl⟩ := h; exact this
  case physicalProperties =>
    simp only [physFrom, Res.bind_eq_ok] at h
    obtain ⟨⟨c, b2, k⟩, h1, h⟩ := h
    have := (checkLengthCond_size (fun c => by simp only [condSizePhys]; split <;> omega) h1).1
    split at h <;> simp only [Res.bind_eq_ok, Res.pure_eq, Res.ok.injEq, Prod.mk.injEq] at h
    · obtain ⟨_, _, _, rfl⟩ := h; exact this
    · obtain ⟨_, rfl⟩ := h; exact this
  all_goals first
    | (have := constFrom_size h; omega)
    | (simp only [intFrom, floatFrom, int64From, vec2From, vec3From, Res.bind_eq_ok, Res.pure_eq, Res.ok.injEq, Prod.mk.injEq] at h
       obtain ⟨⟨_, k⟩, h1, _, rfl⟩ := h
       have := constFrom_size h1; omega)
    | simp at h

/-! ### arrays -/

/-- The sizes of the elements of an array. -/
def sizes (vs : List Val) : Nat := (vs.map valSize).sum

theorem elemsFrom_size {t : TypeID} (ht : t ≠ .optional) : ∀ (n i : Nat) (b : Bytes) (vs : List Val) (m : Nat),
    elemsFrom t i n b = .ok (vs, m) → sizes vs ≤ m ∧ m ≤ b.length := by
  intro n
  induction n with
  | zero => intro i b vs m h; simp [elemsFrom] at h; simp [h.1, ← h.2, sizes]
  | succ n ih =>
    intro i b vs m h
    simp only [elemsFrom] at h
    have hg := (Val.fromBytes_good t ht b).2
    rcases hv : Val.fromBytes t b with ⟨v, nn⟩ | e | _ <;> rw [hv] at h
    · simp only [Res.mapErr_ok, Res.ok_bind, Res.bind_eq_ok, Res.pure_eq, Res.ok.injEq, Prod.mk.injEq] at h
      obtain ⟨⟨vs', m'⟩, h1, rfl, rfl⟩ := h
      have h2 := ih _ _ _ _ h1
      have h3 := fromBytes_size hv
      have h4 := (hg _ _ hv).1
      simp only [List.length_drop] at h2
      simp only [sizes, List.map_cons, List.sum_cons] at h2 ⊢
      omega
    · simp [Res.mapErr] at h
    · simp [Res.mapErr] at h

theorem refsFrom_size : ∀ (n i : Nat) (prev : BitVec 32) (b : Bytes) (vs : List Val) (m : Nat),
    refsFrom i n prev b = .ok (vs, m) → sizes vs ≤ m ∧ 4 * vs.length = m ∧ m ≤ b.length := by
  intro n
  induction n with
  | zero => intro i p b vs m h; simp [refsFrom] at h; simp [h.1, ← h.2, sizes]
  | succ n ih =>
    intro i p b vs m h
    simp only [refsFrom] at h
    have hg := (Val.fromBytes_good .reference (by simp) b).2
    rcases hv : Val.fromBytes .reference b with ⟨v, nn⟩ | e | _ <;> rw [hv] at h
    · simp only [Res.mapErr_ok, Res.ok_bind, Res.bind_eq_ok, Res.pure_eq, Res.ok.injEq, Prod.mk.injEq] at h
      obtain ⟨⟨vs', m'⟩, h1, rfl, rfl⟩ := h
      have h2 := ih _ _ _ _ _ h1
      have h3 : nn = 4 := constFrom_size hv
      have h4 := (hg _ _ hv).1
      simp only [List.length_drop] at h2
      simp only [sizes, List.map_cons, List.sum_cons, valSize, List.length_cons] at h2 ⊢
      omega
    · simp [Res.mapErr] at h
    · simp [Res.mapErr] at h

theorem positionsFrom_size : ∀ (n i : Nat) (b : Bytes) (vs : List Vec3) (m : Nat),
    positionsFrom i n b = .ok (vs, m) → vs.length ≤ m ∧ m ≤ b.length := by
  intro n
  induction n with
  | zero => intro i b vs m h; simp [positionsFrom] at h; simp [← h.1, ← h.2]
  | succ n ih =>
    intro i b vs m h
    simp only [positionsFrom] at h
    have hg := (fromGood_vec3 b).2
    rcases hv : vec3From b with ⟨v, nn⟩ | e | _ <;> rw [hv] at h
    · simp only [Res.mapErr_ok, Res.ok_bind, Res.bind_eq_ok, Res.pure_eq, Res.ok.injEq, Prod.mk.injEq] at h
      obtain ⟨⟨vs', m'⟩, h1, rfl, rfl⟩ := h
      have h2 := ih _ _ _ _ h1
      have h3 : nn = 12 := constFrom_size hv
      have h4 := (hg _ _ hv).1
      simp only [List.length_drop] at h2
      simp only [List.length_cons]
      omega
    · simp [Res.mapErr] at h
    · simp [Res.mapErr] at h

theorem deinterleave_length {b out : Bytes} {size : Nat} (h : deinterleave b size = .ok out) : out.length = b.length := by
  have h' := h
  simp only [deinterleave] at h
  split at h
  · simp at h
  split at h
  · simp at h
  rename_i h0 h1
  obtain ⟨out', e, el, _⟩ := deinterleave_spec b size (b.length / size) (by omega) (by
    have := Nat.div_add_mod b.length size; rw [Nat.mul_comm]; omega)
  rw [h'] at e
  simp only [Res.ok.injEq] at e
  subst e; exact el

theorem deinterleavePrefix_length {slack : Nat} {b out : Bytes} {n : Nat} (h : deinterleavePrefix slack b n = .ok out) :
    out.length = b.length := by
  simp only [deinterleavePrefix] at h
  split at h
  · simp only [Res.bind_eq_ok, Res.pure_eq, Res.ok.injEq] at h
    obtain ⟨d, h1, rfl⟩ := h
    have := deinterleave_length h1
    simp at this ⊢; omega
  split at h
  · simp at h; rw [h]
  · simp at h

theorem rdGood_le {α : Type} {k : Nat} {rd : Rd α} (hr : RdGood k rd) {b r : Bytes} {a : α} (hb : k ≤ b.length)
    (h : rd b = .ok (a, r)) : r.length + k = b.length := by
  obtain ⟨a', ha⟩ := hr b hb
  have := ha []
  simp only [List.append_nil] at this
  rw [h] at this
  simp only [Res.ok.injEq, Prod.mk.injEq] at this
  rw [this.2, List.length_drop]; omega

theorem cframeHeads_size : ∀ (n i : Nat) (b : Bytes) (hs : List (Byte × Rot)) (r : Bytes) (m : Nat),
    cframeHeads i n b = .ok (hs, r, m) → r.length + m = b.length := by
  intro n
  induction n with
  | zero => intro i b hs r m h; simp [cframeHeads] at h; simp [← h.2.1, ← h.2.2]
  | succ n ih =>
    intro i b hs r m h
    simp only [cframeHeads] at h
    rcases hv : checkLengthCond condSizeCFrame b with ⟨c, b2, k⟩ | e | _ <;> rw [hv] at h
    · obtain ⟨_, rfl⟩ := checkLengthCond_size (fun c => by simp only [condSizeCFrame]; split <;> omega) hv
      have hl : (c = 0#8 → 36 ≤ b2.length) := by
        intro hc
        simp only [checkLengthCond, condSizeCFrame, if_pos hc] at hv
        by_cases hh : b2.length + 1 < 1 + 36 + 12
        · rw [if_pos hh] at hv; cases hv
        · omega
      simp only [Res.mapErr_ok, Res.ok_bind, Res.bind_eq_ok, Res.pure_eq, Res.ok.injEq, Prod.mk.injEq] at h
      obtain ⟨⟨⟨rot, k1⟩, b3⟩, h1, ⟨hs', r', m'⟩, h2, _, rfl, rfl⟩ := h
      have h3 := ih _ _ _ _ _ h2
      split at h1
      · rename_i hc
        simp only [Res.bind_eq_ok, Res.pure_eq, Res.ok.injEq, Prod.mk.injEq] at h1
        obtain ⟨⟨rot', b4⟩, h4, ⟨_, rfl⟩, rfl⟩ := h1
        have := rdGood_le rdGood_rot (hl hc) h4
        simp only [List.length_cons] at *; omega
      · simp only [Res.ok.injEq, Prod.mk.injEq] at h1
        obtain ⟨⟨_, rfl⟩, rfl⟩ := h1
        simp only [List.length_cons] at *; omega
    · simp [Res.mapErr] at h
    · simp [Res.mapErr] at h

theorem cframeQuatHeads_size : ∀ (n i : Nat) (b : Bytes) (hs : List (Byte × F32 × F32 × F32 × F32)) (r : Bytes) (m : Nat),
    cframeQuatHeads i n b = .ok (hs, r, m) → r.length + m = b.length := by
  intro n
  induction n with
  | zero => intro i b hs r m h; simp [cframeQuatHeads] at h; simp [← h.2.1, ← h.2.2]
  | succ n ih =>
    intro i b hs r m h
    simp only [cframeQuatHeads] at h
    rcases hv : checkLengthCond condSizeCFrameQuat b with ⟨c, b2, k⟩ | e | _ <;> rw [hv] at h
    · obtain ⟨_, rfl⟩ := checkLengthCond_size (fun c => by simp only [condSizeCFrameQuat]; split <;> omega) hv
      have hl : (c = 0#8 → 16 ≤ b2.length) := by
        intro hc
        simp only [checkLengthCond, condSizeCFrameQuat, if_pos hc] at hv
        by_cases hh : b2.length + 1 < 1 + 16 + 12
        · rw [if_pos hh] at hv; cases hv
        · omega
      simp only [Res.mapErr_ok, Res.ok_bind, Res.bind_eq_ok, Res.pure_eq, Res.ok.injEq, Prod.mk.injEq] at h
      obtain ⟨⟨⟨rot, k1⟩, b3⟩, h1, ⟨hs', r', m'⟩, h2, _, rfl, rfl⟩ := h
      have h3 := ih _ _ _ _ _ h2
      split at h1
      · rename_i hc
        simp only [Res.bind_eq_ok, Res.pure_eq, Res.ok.injEq, Prod.mk.injEq] at h1
        obtain ⟨⟨rot', b4⟩, h4, ⟨_, rfl⟩, rfl⟩ := h1
        have := rdGood_le rdGood_quat (hl hc) h4
        simp only [List.length_cons] at *; omega
      · simp only [Res.ok.injEq, Prod.mk.injEq] at h1
        obtain ⟨⟨_, rfl⟩, rfl⟩ := h1
        simp only [List.length_cons] at *; omega
    · simp [Res.mapErr] at h
    · simp [Res.mapErr] at h

theorem sizes_one {vs : List Val} (h : ∀ v ∈ vs, valSize v = 1) : sizes vs = vs.length := by
  induction vs with
  | nil => rfl
  | cons v vs ih =>
    have := ih fun x hx => h x (List.mem_cons_of_mem _ hx)
    simp only [sizes, List.map_cons, List.sum_cons, List.length_cons] at this ⊢
    rw [h v (List.mem_cons_self ..)]; omega

theorem plainFrom_size {slack : Nat} {t : TypeID} {n : Nat} {b : Bytes} {vs : List Val} {m : Nat} {b' : Bytes}
    (h : plainFrom slack t n b = .ok (vs, m, b')) : sizes vs ≤ m ∧ m ≤ b.length ∧ b'.length = b.length := by
  simp only [plainFrom, Res.bind_eq_ok] at h
  obtain ⟨c, hc, h⟩ := h
  have hl : c.length = b.length := by
    split at hc
    · split at hc
      · simp at hc
      · exact deinterleave_length hc
    · simp at hc; rw [hc]
  clear hc
  have generic : t ≠ .optional → ∀ vs m b', (do let (vs, m) ← elemsFrom t 0 n c; pure (vs, m, c) : Res _) = .ok (vs, m, b') →
      sizes vs ≤ m ∧ m ≤ b.length ∧ b'.length = b.length := by
    intro ht vs m b' h
    simp only [Res.bind_eq_ok, Res.pure_eq, Res.ok.injEq, Prod.mk.injEq] at h
    obtain ⟨⟨vs, m⟩, h1, rfl, rfl, rfl⟩ := h
    have := elemsFrom_size ht _ _ _ _ _ h1
    dsimp only; omega
  cases t
  case cframe =>
    simp only [Res.bind_eq_ok, Res.pure_eq, Res.ok.injEq, Prod.mk.injEq] at h
    obtain ⟨⟨hs, r, m1⟩, h1, r', h2, ⟨ps, k⟩, h3, rfl, rfl, rfl⟩ := h
    have e1 := cframeHeads_size _ _ _ _ _ _ h1
    have e2 := deinterleavePrefix_length h2
    have e3 := positionsFrom_size _ _ _ _ _ h3
    rw [sizes_one (by simp only [List.mem_map]; rintro v ⟨_, _, rfl⟩; rfl)]
    simp only [List.length_map, List.length_zip, List.length_append, List.length_take] at *
    omega
  case cframeQuat =>
    simp only [Res.bind_eq_ok, Res.pure_eq, Res.ok.injEq, Prod.mk.injEq] at h
    obtain ⟨⟨hs, r, m1⟩, h1, r', h2, ⟨ps, k⟩, h3, rfl, rfl, rfl⟩ := h
    have e1 := cframeQuatHeads_size _ _ _ _ _ _ h1
    have e2 := deinterleavePrefix_length h2
    have e3 := positionsFrom_size _ _ _ _ _ h3
    rw [sizes_one (by simp only [List.mem_map]; rintro v ⟨_, _, rfl⟩; rfl)]
    simp only [List.length_map, List.length_zip, List.length_append, List.length_take] at *
    omega
  case reference =>
    simp only [Res.bind_eq_ok, Res.pure_eq, Res.ok.injEq, Prod.mk.injEq] at h
    obtain ⟨⟨vs, m⟩, h1, rfl, rfl, rfl⟩ := h
    have := refsFrom_size _ _ _ _ _ _ h1
    dsimp only; omega
  case optional =>
    simp only [Res.bind_eq_ok, Res.pure_eq, Res.ok.injEq, Prod.mk.injEq] at h
    obtain ⟨⟨vs, m⟩, h1, rfl, rfl, rfl⟩ := h
    cases n with
    | zero => simp [elemsFrom] at h1; simp [h1.1, ← h1.2, sizes, hl]
    | succ n => simp [elemsFrom, Val.fromBytes, Res.mapErr] at h1
  all_goals exact generic (by simp) _ _ _ h

theorem refArrayFrom_size {b : Bytes} {n : Nat} {l : List (BitVec 32)} (h : refArrayFrom b n = .ok l) :
    4 * l.length ≤ b.length := by
  simp only [refArrayFrom, plainFrom, Res.bind_eq_ok, Res.pure_eq, Res.ok.injEq] at h
  obtain ⟨⟨vs, m, b'⟩, ⟨c, hc, ⟨vs', m'⟩, h1, h2⟩, rfl⟩ := h
  have hl : c.length = b.length := by
    simp only [interleaved, if_true, TypeID.size] at hc
    exact deinterleave_length hc
  simp only [Prod.mk.injEq] at h2
  obtain ⟨rfl, _, _⟩ := h2
  have := refsFrom_size _ _ _ _ _ _ h1
  rw [List.length_map]; dsimp only; omega

/-- The size of the `i`-th element of an array. -/
def Arr.sizeAt : Arr → Nat → Nat
  | .plain _ vs, i => (vs[i]?.map valSize).getD 0
  | .optNil _, _ => 0
  | .optional a _, i => 1 + a.sizeAt i

/-- The sizes of the first `n` elements of an array. -/
def Arr.sizeTo (a : Arr) (n : Nat) : Nat := ((List.range n).map a.sizeAt).sum

theorem sum_range_getElem? (vs : List Val) : ∀ n, ((List.range n).map fun i => (vs[i]?.map valSize).getD 0).sum = sizes (vs.take n) := by
  intro n
  induction n with
  | zero => simp [sizes]
  | succ n ih =>
    rw [List.range_succ, List.map_append, List.sum_append, ih, List.take_add_one]
    simp only [sizes, List.map_append, List.sum_append]
    rcases hx : vs[n]? with _ | v <;> simp [hx]

theorem sizes_take (vs : List Val) (n : Nat) : sizes (vs.take n) ≤ sizes vs := by
  have : sizes vs = sizes (vs.take n ++ vs.drop n) := by rw [List.take_append_drop]
  rw [this]
  simp only [sizes, List.map_append, List.sum_append]; omega

theorem sum_range_one_add (f : Nat → Nat) (n : Nat) :
    ((List.range n).map fun i => 1 + f i).sum = n + ((List.range n).map f).sum := by
  induction n with
  | zero => simp
  | succ n ih => rw [List.range_succ]; simp only [List.map_append, List.sum_append, ih, List.map_cons, List.map_nil, List.sum_cons, List.sum_nil]; omega

theorem presentFrom_size {n : Nat} {b : Bytes} {p : List Bool} {m : Nat} (h : presentFrom n b = .ok (p, m)) :
    n ≤ m ∧ m ≤ b.length := by
  cases b with
  | nil => simp [presentFrom] at h
  | cons tb b =>
    simp only [presentFrom] at h
    split at h
    · simp at h
    split at h
    · simp at h
    simp only [Res.bind_eq_ok, Res.pure_eq, Res.ok.injEq, Prod.mk.injEq] at h
    obtain ⟨⟨vs, k⟩, h1, _, rfl⟩ := h
    have e1 := elemsFrom_size (by simp) _ _ _ _ _ h1
    have e2 := (elemsFrom_ok (by simp) _ _ _).2 _ _ h1
    rw [sizes_one (fun v hv => by have := e2.2 v hv; cases v <;> simp [Val.type] at this; rfl)] at e1
    simp only [List.length_cons]; omega

theorem typeArrayFrom_size {slack : Nat} {n : Nat} : ∀ {b : Bytes} {a : Arr} {m : Nat} {b' : Bytes},
    typeArrayFrom slack n b = .ok (a, m, b') → a.sizeTo n ≤ m ∧ m ≤ b.length ∧ b'.length = b.length := by
  intro b
  induction b with
  | nil => intro a m b' h; simp [typeArrayFrom] at h
  | cons tb b ih =>
    intro a m b' h
    rw [typeArrayFrom] at h
    split at h
    · simp at h
    split at h
    · simp at h
    · simp only [Res.bind_eq_ok, Res.pure_eq, Res.ok.injEq, Prod.mk.injEq] at h
      obtain ⟨⟨vs, nn, r⟩, h1, ⟨p, mm⟩, h2, rfl, rfl, rfl⟩ := h
      have e1 := ih h1
      have e2 := presentFrom_size h2
      simp only [List.length_drop] at e2
      simp only [Arr.sizeTo, Arr.sizeAt] at e1 ⊢
      rw [sum_range_one_add]
      simp only [List.length_cons]; omega
    · simp only [Res.bind_eq_ok, Res.pure_eq, Res.ok.injEq, Prod.mk.injEq] at h
      obtain ⟨⟨vs, nn, r⟩, h1, rfl, rfl, rfl⟩ := h
      have e1 := plainFrom_size h1
      have e2 := sizes_take vs n
      simp only [Arr.sizeTo, Arr.sizeAt]
      rw [sum_range_getElem?]
      simp only [List.length_cons]; omega

/-! ### chunks -/

/-- The size of an entry of the metadata. -/
def pairSize (kv : Bytes × Bytes) : Nat := 8 + kv.1.length + kv.2.length

/-- What a chunk can add to a tree. -/
def bodySize : Body → Nat
  | .inst c => 4 * c.ids.length
  | .prop ⟨_, _, some a⟩ => a.sizeTo a.len
  | .parent c => 8 * (c.children.zip c.parents).length
  | .metadata vs => (vs.map pairSize).sum
  | _ => 0

theorem num32_size {b r : Bytes} {v : BitVec 32} (h : num32 b = .ok (v, r)) : r.length + 4 = b.length := by
  simp only [num32] at h
  split at h
  · cases h
  · exact rdGood_le rdGood_le32 (by omega) h

theorem num8_size {b r : Bytes} {v : Byte} (h : num8 b = .ok (v, r)) : r.length + 1 = b.length := by
  simp only [num8] at h
  split at h
  · cases h
  · exact rdGood_le rdGood_u8 (by omega) h

theorem takeN_size {n : Nat} {b a r : Bytes} (h : takeN n b = .ok (a, r)) : a.length + r.length = b.length := by
  simp only [takeN] at h
  split at h
  · cases h
  · simp only [Res.ok.injEq, Prod.mk.injEq] at h
    obtain ⟨rfl, rfl⟩ := h
    simp only [List.length_take, List.length_drop]; omega

theorem readString_size {b s r : Bytes} (h : readString b = .ok (s, r)) : 4 + s.length + r.length = b.length := by
  simp only [readString, rd_bind, Res.bind_eq_ok] at h
  obtain ⟨⟨n, b1⟩, h1, h2⟩ := h
  have := num32_size h1
  have := takeN_size h2
  dsimp only at *; omega

theorem readRefs_size {n : BitVec 32} {b r : Bytes} {l : List (BitVec 32)} (h : readRefs n b = .ok (l, r)) :
    4 * l.length + r.length ≤ b.length := by
  simp only [readRefs] at h
  split at h
  · simp only [rd_pure, Res.ok.injEq, Prod.mk.injEq] at h
    obtain ⟨rfl, rfl⟩ := h
    simp
  · simp only [rd_bind, Res.bind_eq_ok, liftRes, Res.pure_eq, Res.ok.injEq, Prod.mk.injEq] at h
    obtain ⟨⟨raw, b1⟩, h1, l', h2, rfl, rfl⟩ := h
    have := takeN_size h1
    have := refArrayFrom_size h2
    dsimp only at *; omega

theorem readPair_size {b r : Bytes} {kv : Bytes × Bytes} (h : readPair b = .ok (kv, r)) :
    pairSize kv + r.length = b.length := by
  simp only [readPair, rd_bind, Res.bind_eq_ok, rd_pure, Res.ok.injEq, Prod.mk.injEq] at h
  obtain ⟨⟨k, b1⟩, h1, ⟨v, b2⟩, h2, rfl, rfl⟩ := h
  have := readString_size h1
  have := readString_size h2
  simp only [pairSize] at *; omega

theorem readPairs_size : ∀ (n : Nat) (b r : Bytes) (l : List (Bytes × Bytes)), rdMany readPair n b = .ok (l, r) →
    (l.map pairSize).sum + r.length = b.length := by
  intro n
  induction n with
  | zero => intro b r l h; simp [rdMany] at h; simp [h.1, h.2]
  | succ n ih =>
    intro b r l h
    simp only [rdMany, rd_bind, Res.bind_eq_ok, rd_pure, Res.ok.injEq, Prod.mk.injEq] at h
    obtain ⟨⟨x, b1⟩, h1, ⟨xs, b2⟩, h2, rfl, rfl⟩ := h
    have e1 := readPair_size h1
    have e2 := ih _ _ _ h2
    simp only [List.map_cons, List.sum_cons] at *; omega

theorem decodeBody_size {slack : Bytes → Nat} {g} {raw : Raw} {body : Body} (h : decodeBody slack g raw = some (.ok body)) :
    bodySize body ≤ raw.payload.length := by
  simp only [decodeBody] at h
  split at h
  · simp only [Option.some.injEq, Res.bind_eq_ok, Res.pure_eq, Res.ok.injEq] at h
    obtain ⟨⟨vs, r⟩, h1, rfl⟩ := h
    simp only [decodeMeta, rd_bind, Res.bind_eq_ok] at h1
    obtain ⟨⟨n, b1⟩, h1, h2⟩ := h1
    have := num32_size h1
    have := readPairs_size _ _ _ _ h2
    dsimp only at *
    simp only [bodySize]; omega
  split at h
  · simp only [Option.some.injEq, Res.bind_eq_ok, Res.pure_eq, Res.ok.injEq] at h
    obtain ⟨_, _, rfl⟩ := h
    exact Nat.zero_le _
  split at h
  · simp only [Option.some.injEq, Res.bind_eq_ok, Res.pure_eq, Res.ok.injEq] at h
    obtain ⟨⟨c, r⟩, h, rfl⟩ := h
    simp only [decodeInst, rd_bind, Res.bind_eq_ok] at h
    obtain ⟨⟨cid, b1⟩, h1, ⟨nm, b2⟩, h2, ⟨sv, b3⟩, h3, ⟨gl, b4⟩, h4, ⟨ids, b5⟩, h5, h6⟩ := h
    have := num32_size h1
    have := readString_size h2
    have := num8_size h3
    have := num32_size h4
    have := readRefs_size h5
    have hc : c.ids = ids := by
      split at h6
      · simp only [rd_bind, Res.bind_eq_ok, rd_pure, Res.ok.injEq, Prod.mk.injEq] at h6
        obtain ⟨_, _, rfl, _⟩ := h6; rfl
      · simp only [rd_pure, Res.ok.injEq, Prod.mk.injEq] at h6
        obtain ⟨rfl, _⟩ := h6; rfl
    dsimp only at *
    simp only [bodySize, hc]; omega
  split at h
  · simp only [Option.some.injEq, Res.bind_eq_ok, Res.pure_eq, Res.ok.injEq] at h
    obtain ⟨⟨c, r⟩, h, rfl⟩ := h
    simp only [decodeProp, rd_bind, Res.bind_eq_ok] at h
    obtain ⟨⟨cid, b1⟩, h1, h⟩ := h
    have e1 := num32_size h1
    dsimp only at h
    rcases hg : g.get? cid with _ | ⟨_, inst⟩ <;> rw [hg] at h
    · simp [liftRes] at h
    · dsimp only at h
      simp only [rd_bind, Res.bind_eq_ok, takeAll, Res.ok.injEq] at h
      obtain ⟨⟨nm, b2⟩, h2, ⟨rw_, b3⟩, h3, h⟩ := h
      simp only [Prod.mk.injEq] at h3
      obtain ⟨rfl, rfl⟩ := h3
      have e2 := readString_size h2
      dsimp only at h e1 e2
      split at h
      · simp only [rd_pure, Res.ok.injEq, Prod.mk.injEq] at h
        obtain ⟨rfl, _⟩ := h
        exact Nat.zero_le _
      · simp only [rd_bind, Res.bind_eq_ok, liftRes, Res.pure_eq, Res.ok.injEq, rd_pure, Prod.mk.injEq] at h
        obtain ⟨_, ⟨⟨a, m, b'⟩, h3, rfl⟩, rfl, _⟩ := h
        have e3 := typeArrayFrom_size h3
        have e4 := (((typeArrayFrom_exact _ _ _).2 _ _ _ h3)).len
        dsimp only at *
        simp only [bodySize, e4]; omega
  split at h
  · simp only [Option.some.injEq, Res.bind_eq_ok, Res.pure_eq, Res.ok.injEq] at h
    obtain ⟨⟨c, r⟩, h, rfl⟩ := h
    simp only [decodeParent, rd_bind, Res.bind_eq_ok, rd_pure, Res.ok.injEq, Prod.mk.injEq] at h
    obtain ⟨⟨v, b1⟩, h1, ⟨n, b2⟩, h2, ⟨cs, b3⟩, h3, ⟨ps, b4⟩, h4, rfl, _⟩ := h
    have := num8_size h1
    have := num32_size h2
    have := readRefs_size h3
    have := readRefs_size h4
    simp only [bodySize, List.length_zip] at *; omega
  split at h
  · simp only [Option.some.injEq, Res.bind_eq_ok, Res.pure_eq, Res.ok.injEq] at h
    obtain ⟨_, _, rfl⟩ := h
    exact Nat.zero_le _
  · simp at h

/-! ### the tree -/

theorem sum_set_old {κ ν : Type} [DecidableEq κ] (f : κ × ν → Nat) {k : κ} {v o : ν} : ∀ {m : Map κ ν},
    m.get? k = some o → ((m.set k v).map f).sum + f (k, o) = (m.map f).sum + f (k, v) := by
  intro m
  induction m with
  | nil => intro h; simp at h
  | cons a m ih =>
    obtain ⟨k', v'⟩ := a
    intro h
    simp only [Map.get?] at h
    simp only [Map.set]
    split at h
    · rename_i hk
      simp only [Option.some.injEq] at h
      subst hk h
      simp only [if_true, List.map_cons, List.sum_cons]; omega
    · rename_i hk
      have := ih h
      simp only [if_neg hk, List.map_cons, List.sum_cons]; omega

theorem sum_set_new {κ ν : Type} [DecidableEq κ] (f : κ × ν → Nat) {k : κ} {v : ν} : ∀ {m : Map κ ν},
    m.get? k = none → ((m.set k v).map f).sum = (m.map f).sum + f (k, v) := by
  intro m
  induction m with
  | nil => intro _; simp [Map.set]
  | cons a m ih =>
    obtain ⟨k', v'⟩ := a
    intro h
    simp only [Map.get?] at h
    simp only [Map.set]
    split at h
    · simp at h
    · rename_i hk
      have := ih h
      simp only [if_neg hk, List.map_cons, List.sum_cons]; omega

theorem sum_set_le {κ ν : Type} [DecidableEq κ] (f : κ × ν → Nat) (k : κ) (v : ν) (m : Map κ ν) :
    ((m.set k v).map f).sum ≤ (m.map f).sum + f (k, v) := by
  rcases h : m.get? k with _ | o
  · exact Nat.le_of_eq (sum_set_new f h)
  · have := sum_set_old f (v := v) h; omega

/-- The size of the instances. -/
def heapSize (h : Heap Id) : Nat := (h.map fun pi => instSize pi.2).sum

theorem instLoop_size {c : InstChunk} {n : BitVec 32} : ∀ (refs : List Id) (i : Nat) (h h' : Heap Id),
    instLoop c n i refs h = .ok h' → heapSize h' = heapSize h + 4 * refs.length := by
  intro refs
  induction refs with
  | nil => intro i h h' e; simp [instLoop] at e; simp [e]
  | cons r refs ih =>
    intro i h h' e
    simp only [instLoop] at e
    split at e
    · cases e
    split at e
    · cases e
    rename_i hnone
    have hn : h.get? r = none := by simpa using hnone
    have key : ∀ s : Bool, heapSize (h.set r { className := c.className, isService := s }) = heapSize h + 4 := by
      intro s
      unfold heapSize
      rw [sum_set_new _ hn]
      simp [instSize]
    split at e
    · split at e
      · cases e
      · rw [ih _ _ _ e, key]; simp only [List.length_cons]; omega
    · rw [ih _ _ _ e, key false]; simp only [List.length_cons]; omega

theorem propLoop_size {value : Nat → Res (Value Id)} {g : Nat → Nat} (hg : ∀ i v, value i = .ok v → valueSize v ≤ g i)
    {name : Bytes} : ∀ (ids : List Id) (k : Nat) (h h' : Heap Id), propLoop value name k ids h = .ok h' →
      heapSize h' ≤ heapSize h + ((List.range' k ids.length).map g).sum := by
  intro ids
  induction ids with
  | nil => intro k h h' e; simp [propLoop] at e; simp [e]
  | cons id ids ih =>
    intro k h h' e
    simp only [propLoop] at e
    rcases hv : value k with v | _ | _ <;> rw [hv] at e
    · dsimp only at e
      rcases hi : h.get? id with _ | inst <;> rw [hi] at e
      · cases e
      · dsimp only at e
        have h1 := ih _ _ _ e
        have h2 := hg k v hv
        have h3 : heapSize (h.set id { inst with properties := inst.properties.set name v }) ≤ heapSize h + valueSize v := by
          have h4 := sum_set_old (fun pi : Id × Inst Id => instSize pi.2)
            (v := { inst with properties := inst.properties.set name v }) hi
          have h5 := sum_set_le (fun nv : Bytes × Value Id => valueSize nv.2) name v inst.properties
          unfold heapSize
          simp only [instSize] at h4 h5 ⊢
          omega
        simp only [List.length_cons, List.range'_succ, List.map_cons, List.sum_cons]
        omega
    · cases e
    · cases e

theorem get_size {a : Arr} {i : Nat} {v : Val} (h : a.get i = .ok (some v)) : valSize v ≤ a.sizeAt i := by
  induction a with
  | plain t vs =>
    simp only [Arr.get] at h
    split at h
    · rename_i hx
      simp only [Res.ok.injEq, Option.some.injEq] at h
      subst h
      simp [Arr.sizeAt, hx]
    · cases h
  | optNil p => simp [Arr.get] at h
  | optional a p ih =>
    simp only [Arr.get] at h
    split at h
    · cases h
    · cases h
    · have := ih h
      simp only [Arr.sizeAt]; omega

theorem valSize_pos (v : Val) : 1 ≤ valSize v := by cases v <;> simp [valSize] <;> omega

theorem propValue_size {quat : Quat} {h : Heap Id} {shared : List (Bytes × Bytes)} {a : Arr} {i : Nat} {v : Value Id}
    (e : propValue quat h shared a i = .ok v) : valueSize v ≤ a.sizeAt i := by
  unfold propValue at e
  split at e
  · split at e
    · rename_i x hx
      simp only [Res.ok.injEq] at e; subst e
      simp only [Arr.sizeAt, hx, Option.map_some, Option.getD_some, valueSize]
      exact valSize_pos _
    · cases e
  · split at e
    · rename_i x hx
      have : valueSize v = 1 := by
        split at e <;> (simp only [Res.ok.injEq] at e; subst e; rfl)
      rw [this]
      simp only [Arr.sizeAt, hx, Option.map_some, Option.getD_some]
      exact valSize_pos _
    · cases e
  · split at e
    · rename_i x hx
      split at e
      · rename_i y hy
        simp only [Res.ok.injEq] at e; subst e
        simp only [Arr.sizeAt, hx, Option.map_some, Option.getD_some]
        exact Nat.le_of_eq (decodeValue_size _ _ _ hy)
      · cases e
    · cases e
  · cases e
  · split at e
    · cases e
    · simp only [Res.bind_eq_ok] at e
      obtain ⟨o, h1, e⟩ := e
      split at e
      · rename_i x
        split at e
        · rename_i y hy
          simp only [Res.ok.injEq] at e; subst e
          have := get_size h1
          have := decodeValue_size _ _ _ hy
          simp only [Arr.sizeAt, valueSize]; omega
        · cases e
      · cases e
    · simp only [Res.ok.injEq] at e; subst e
      simp only [Arr.sizeAt, valueSize]; omega

/-- The size of the tree built so far. -/
def stateSize (st : DecState) : Nat := treeSize st.heap st.root

theorem parentLoop_size {ic : Nat} {n : BitVec 32} : ∀ (ls : List (Id × Id)) (i : Nat) (st : DecState),
    stateSize (parentLoop ic n i ls st).1 ≤ stateSize st + 8 * ls.length := by
  intro ls
  induction ls with
  | nil => intro i st; simp [parentLoop]
  | cons l ls ih =>
    obtain ⟨c, p⟩ := l
    intro i st
    simp only [parentLoop, List.length_cons]
    split
    · simp only []; omega
    split
    · have := ih (i + 1) { st with warns := st.warns ++ [.childMissing ic i] }
      have e : stateSize { st with warns := st.warns ++ [.childMissing ic i] } = stateSize st := rfl
      omega
    split
    · have := ih (i + 1) { st with root := { st.root with instances := st.root.instances ++ [c] } }
      have e : stateSize { st with root := { st.root with instances := st.root.instances ++ [c] } } = stateSize st + 8 := by
        simp only [stateSize, treeSize, List.length_append, List.length_cons, List.length_nil]; omega
      dsimp only at *
      omega
    split
    · have := ih (i + 1) st; omega
    · rename_i inst hi
      have := ih (i + 1) { st with heap := st.heap.set p { inst with children := inst.children ++ [c] } }
      have e : stateSize { st with heap := st.heap.set p { inst with children := inst.children ++ [c] } } = stateSize st + 8 := by
        have h4 := sum_set_old (fun pi : Id × Inst Id => instSize pi.2)
          (v := { inst with children := inst.children ++ [c] }) hi
        simp only [stateSize, treeSize]
        simp only [instSize, List.length_append, List.length_cons, List.length_nil] at h4 ⊢
        omega
      omega

theorem foldl_set_size : ∀ (vs : List (Bytes × Bytes)) (m : Map Bytes Bytes),
    ((vs.foldl (fun m kv => m.set kv.1 kv.2) m).map pairSize).sum ≤ (m.map pairSize).sum + (vs.map pairSize).sum := by
  intro vs
  induction vs with
  | nil => intro m; simp
  | cons kv vs ih =>
    intro m
    have h1 := ih (m.set kv.1 kv.2)
    have h2 := sum_set_le pairSize kv.1 kv.2 m
    simp only [List.foldl_cons, List.map_cons, List.sum_cons]
    have e : pairSize (kv.1, kv.2) = pairSize kv := rfl
    omega

theorem codecStep_size {quat : Quat} {f : FormatModel} {ic : Nat} {st : DecState} {b : Body} :
    stateSize (codecStep quat f ic st b).1 ≤ stateSize st + bodySize b := by
  unfold codecStep
  cases b with
  | inst c =>
    dsimp only
    split
    · exact Nat.le_add_right _ _
    split
    · exact Nat.le_add_right _ _
    split
    · exact Nat.le_add_right _ _
    · exact Nat.le_add_right _ _
    split
    · exact Nat.le_add_right _ _
    · rename_i h hl _
      have := instLoop_size _ _ _ _ hl
      simp only [stateSize, treeSize, bodySize, heapSize] at *
      omega
  | prop c =>
    dsimp only
    split
    · exact Nat.le_add_right _ _
    split
    · exact Nat.le_add_right _ _
    split
    · exact Nat.le_add_right _ _
    rename_i a ha
    split
    · exact Nat.le_add_right _ _
    rename_i hlen
    split
    · exact Nat.le_add_right _ _
    · exact Nat.le_add_right _ _
    · rename_i h hl
      have := propLoop_size (g := a.sizeAt) (fun i v e => propValue_size e) _ _ _ _ hl
      rw [← List.range_eq_range'] at this
      have hb : bodySize (.prop c) = a.sizeTo a.len := by
        obtain ⟨_, _, p⟩ := c
        dsimp only at ha
        subst ha; rfl
      rw [hb]
      rw [Decidable.not_not.1 hlen]
      simp only [stateSize, treeSize, heapSize, Arr.sizeTo] at *
      omega
  | parent c =>
    dsimp only
    split
    · exact Nat.le_add_right _ _
    split
    · exact Nat.le_add_right _ _
    · exact parentLoop_size _ _ _
  | metadata vs =>
    have := foldl_set_size vs st.root.metadata
    dsimp only
    simp only [stateSize, treeSize, bodySize]
    have e : (fun kv : Bytes × Bytes => 8 + kv.1.length + kv.2.length) = pairSize := rfl
    rw [e]; omega
  | shared c => exact Nat.le_add_right _ _
  | end_ c => exact Nat.le_add_right _ _
  | unknown s p => exact Nat.le_add_right _ _
  | errored s p => exact Nat.le_add_right _ _

/-- What the chunks can add to a tree. -/
def chunksSize (cs : List Chunk) : Nat := (cs.map fun c => bodySize c.body).sum

theorem codecLoop_size {quat : Quat} {f : FormatModel} : ∀ (cs : List Chunk) (ic : Nat) (st : DecState),
    stateSize (codecLoop quat f ic cs st).1 ≤ stateSize st + chunksSize cs := by
  intro cs
  induction cs with
  | nil => intro ic st; simp [codecLoop]
  | cons c cs ih =>
    intro ic st
    have h1 := codecStep_size (quat := quat) (f := f) (ic := ic) (st := st) (b := c.body)
    simp only [codecLoop, chunksSize, List.map_cons, List.sum_cons]
    rcases hs : codecStep quat f ic st c.body with ⟨st', fl⟩
    rw [hs] at h1
    dsimp only at h1
    cases fl
    · have := ih (ic + 1) st'
      simp only [chunksSize] at this
      dsimp only; omega
    all_goals (dsimp only; omega)

theorem codecDecode_size {quat : Quat} {f : FormatModel} {ws h root} (e : codecDecode quat f = (ws, .ok (h, root))) :
    treeSize h root ≤ chunksSize f.chunks := by
  have h1 := codecLoop_size (quat := quat) (f := f) f.chunks 0 {}
  have e0 : stateSize {} = 0 := rfl
  simp only [codecDecode] at e
  rcases hl : codecLoop quat f 0 f.chunks {} with ⟨st, fl⟩
  rw [hl] at e h1
  cases fl <;> simp only [Prod.mk.injEq, Res.ok.injEq, reduceCtorEq, and_false] at e
  all_goals
    obtain ⟨_, rfl, rfl⟩ := e
    simp only [stateSize] at *
    omega

theorem runRaws_size {slack : Bytes → Nat} : ∀ (raws : List Raw) (st st' : LoopState), runRaws slack st raws = .ok st' →
    chunksSize st'.chunks ≤ chunksSize st.chunks + (raws.map fun r => r.payload.length).sum := by
  intro raws
  induction raws with
  | nil => intro st st' h; simp [runRaws] at h; simp [h]
  | cons r raws ih =>
    intro st st' h
    simp only [runRaws, Res.bind_eq_ok] at h
    obtain ⟨⟨st1, fl⟩, h1, h2⟩ := h
    have e2 := ih _ _ h2
    have e1 : chunksSize st1.chunks ≤ chunksSize st.chunks + r.payload.length := by
      simp only [stepChunk] at h1
      split at h1
      · simp only [Res.ok.injEq, Prod.mk.injEq] at h1
        rw [← h1.1]
        simp [chunksSize, bodySize]
      · cases h1
      · simp only [Res.ok.injEq, Prod.mk.injEq] at h1
        rw [← h1.1]
        simp [chunksSize, bodySize]
      · rename_i body hb
        have := decodeBody_size hb
        simp only [Res.ok.injEq, Prod.mk.injEq] at h1
        rw [← h1.1]
        simp [chunksSize]; omega
    simp only [List.map_cons, List.sum_cons]
    dsimp only at *
    omega

end Rbxl

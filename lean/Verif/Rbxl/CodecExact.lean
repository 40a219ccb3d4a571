import Verif.Rbxl.PanicFrames
import Verif.Rbxl.DecodeWarnings
/-!
# Exactly which lists of chunks the codec accepts
-/
namespace Rbxl
open Go Rbxfile Spec

/-- What is known of the chunks that the decoder has read. -/
structure ReadOk (chunks : List Chunk) (groups : Map (BitVec 32) (Nat × InstChunk)) : Prop where
  /-- the class table holds the last INST chunk of each class -/
  groups : ∀ k i g, groups.get? k = some (i, g) ↔ ∃ pre c post, chunks = pre ++ c :: post ∧ pre.length = i ∧ c.body = .inst g ∧
    g.classID = k ∧ ∀ c' ∈ post, ∀ g', c'.body = .inst g' → g'.classID ≠ k
  /-- a PROP chunk has a value for each instance of the last INST chunk of its class before it -/
  props : ∀ pre c post p, chunks = pre ++ c :: post → c.body = .prop p →
    ∃ pre' c' mid g, pre = pre' ++ c' :: mid ∧ c'.body = .inst g ∧ g.classID = p.classID ∧
      (∀ x ∈ mid, ∀ g', x.body = .inst g' → g'.classID ≠ p.classID) ∧ ∀ a, p.props = some a → ArrOk g.ids.length a

theorem ReadOk.nil : ReadOk [] [] := by
  refine ⟨fun k i g => ⟨nofun, ?_⟩, ?_⟩
  · rintro ⟨pre, c, post, h, _⟩
    simp at h
  · intro pre c post p h
    simp at h

/-- Splitting a list with one more element. -/
theorem snoc_split {α : Type} {l pre post : List α} {x c : α} (h : l ++ [x] = pre ++ c :: post) :
    (post = [] ∧ pre = l ∧ c = x) ∨ ∃ post', post = post' ++ [x] ∧ l = pre ++ c :: post' := by
  rcases List.eq_nil_or_concat post with rfl | ⟨post', y, rfl⟩
  · obtain ⟨h1, h2⟩ := List.append_inj' h rfl
    simp at h2
    exact .inl ⟨rfl, h1.symm, h2.symm⟩
  · right
    have : l ++ [x] = (pre ++ c :: post') ++ [y] := by rw [h]; simp
    obtain ⟨h1, h2⟩ := List.append_inj' this rfl
    simp at h2
    subst h2
    exact ⟨post', by simp, h1⟩

theorem ReadOk.push {chunks : List Chunk} {groups groups' : Map (BitVec 32) (Nat × InstChunk)} {c : Chunk} (h : ReadOk chunks groups)
    (hg : groups' = match c.body with | .inst g => groups.set g.classID (chunks.length, g) | _ => groups)
    (hp : ∀ p, c.body = .prop p → ∃ i g, groups.get? p.classID = some (i, g) ∧ ∀ a, p.props = some a → ArrOk g.ids.length a) :
    ReadOk (chunks ++ [c]) groups' := by
  constructor
  · intro k i g
    have old : (∀ g, c.body = .inst g → g.classID ≠ k) → (groups.get? k = some (i, g) ↔
        ∃ pre c' post, chunks ++ [c] = pre ++ c' :: post ∧ pre.length = i ∧ c'.body = .inst g ∧
          g.classID = k ∧ ∀ x ∈ post, ∀ g', x.body = .inst g' → g'.classID ≠ k) := by
      intro hne
      rw [h.groups]
      constructor
      · rintro ⟨pre, c', post, rfl, h2, h3, h4, h5⟩
        refine ⟨pre, c', post ++ [c], by simp, h2, h3, h4, ?_⟩
        intro x hx g' hb
        rcases List.mem_append.1 hx with hx | hx
        · exact h5 x hx g' hb
        · rw [List.mem_singleton.1 hx] at hb
          exact hne g' hb
      · rintro ⟨pre, c', post, h1, h2, h3, h4, h5⟩
        rcases snoc_split h1 with ⟨rfl, rfl, rfl⟩ | ⟨post', rfl, rfl⟩
        · exact absurd h4 (hne g h3)
        · exact ⟨pre, c', post', rfl, h2, h3, h4, fun x hx => h5 x (by simp [hx])⟩
    by_cases hc : ∃ g0, c.body = .inst g0 ∧ g0.classID = k
    · obtain ⟨g0, hb, rfl⟩ := hc
      rw [hg, hb]
      simp only [Map.get?_set_self]
      constructor
      · intro e
        cases e
        exact ⟨chunks, c, [], rfl, rfl, hb, rfl, nofun⟩
      · rintro ⟨pre, c', post, h1, h2, h3, h4, h5⟩
        rcases snoc_split h1 with ⟨rfl, rfl, rfl⟩ | ⟨post', rfl, rfl⟩
        · rw [hb] at h3
          cases h3
          rw [h2]
        · exact absurd rfl (h5 c (by simp) g0 hb)
    · have hne : ∀ g, c.body = .inst g → g.classID ≠ k := fun g h1 h2 => hc ⟨g, h1, h2⟩
      rw [← old hne, hg]
      split
      · rename_i g0 hb
        rw [Map.get?_set_ne _ _ (Ne.symm (hne g0 hb))]
      · rfl
  · intro pre c' post p h1 hb
    rcases snoc_split h1 with ⟨rfl, rfl, rfl⟩ | ⟨post', rfl, rfl⟩
    · obtain ⟨i, g, e1, e2⟩ := hp p hb
      obtain ⟨pre', c2, mid, f1, f2, f3, f4, f5⟩ := (h.groups _ _ _).1 e1
      exact ⟨pre', c2, mid, g, f1, f3, f4, f5, e2⟩
    · exact h.props pre c' post' p rfl hb

theorem decodeProp_exact {slack g} {b : Bytes} {c : PropChunk} {r : Bytes} (e : decodeProp slack g b = .ok (c, r)) :
    ∃ i inst, g.get? c.classID = some (i, inst) ∧ ∀ a, c.props = some a → ArrOk inst.ids.length a := by
  simp only [decodeProp] at e
  rw [rd_bind] at e
  obtain ⟨⟨id, r1⟩, -, e⟩ := (Res.bind_eq_ok ..).1 e
  simp only at e
  rcases hg : g.get? id with _ | ⟨i, inst⟩
  · rw [hg] at e; cases e
  rw [hg] at e
  simp only [rd_bind] at e
  obtain ⟨⟨name, r2⟩, -, e⟩ := (Res.bind_eq_ok ..).1 e
  simp only [rd_bind] at e
  obtain ⟨⟨raw, r3⟩, -, e⟩ := (Res.bind_eq_ok ..).1 e
  simp only at e
  split at e
  · cases e
    exact ⟨i, inst, hg, nofun⟩
  · simp only [rd_bind] at e
    obtain ⟨⟨⟨a, x⟩, r4⟩, h1, e⟩ := (Res.bind_eq_ok ..).1 e
    cases e
    refine ⟨i, inst, hg, ?_⟩
    intro a' ha
    cases ha
    simp only [liftRes] at h1
    obtain ⟨y, h2, h3⟩ := (Res.bind_eq_ok ..).1 h1
    cases h3
    exact (typeArrayFrom_exact _ _ _).2 _ _ _ h2

theorem decodeBody_propExact {slack : Bytes → Nat} {groups : Map (BitVec 32) (Nat × InstChunk)} {raw : Raw} {p : PropChunk}
    (e : decodeBody slack groups raw = some (.ok (.prop p))) :
    ∃ i inst, groups.get? p.classID = some (i, inst) ∧ ∀ a, p.props = some a → ArrOk inst.ids.length a := by
  have wrong : ∀ {α : Type} {f : Rd α} {k : α → Body}, (∀ a, k a ≠ .prop p) →
      some (do let (a, _) ← f raw.payload; pure (k a)) = some (Res.ok (Body.prop p)) → False := by
    intro α f k hk e
    rw [Option.some.injEq] at e
    obtain ⟨⟨a, r⟩, -, e⟩ := (Res.bind_eq_ok ..).1 e
    exact hk a (Res.ok.inj e)
  simp only [decodeBody] at e
  split at e
  · exact (wrong nofun e).elim
  split at e
  · exact (wrong nofun e).elim
  split at e
  · exact (wrong nofun e).elim
  split at e
  · rw [Option.some.injEq] at e
    obtain ⟨⟨a, r⟩, h1, e⟩ := (Res.bind_eq_ok ..).1 e
    cases e
    exact decodeProp_exact h1
  split at e
  · exact (wrong nofun e).elim
  split at e
  · exact (wrong nofun e).elim
  · cases e

theorem stepChunk_readOk {slack} {st st' : LoopState} {raw : Raw} {fl : Bool} (h : ReadOk st.chunks st.groups)
    (e : stepChunk slack st raw = .ok (st', fl)) : ReadOk st'.chunks st'.groups := by
  simp only [stepChunk] at e
  split at e
  · simp only [Res.ok.injEq, Prod.mk.injEq] at e
    obtain ⟨rfl, rfl⟩ := e
    exact h.push rfl nofun
  · cases e
  · simp only [Res.ok.injEq, Prod.mk.injEq] at e
    obtain ⟨rfl, rfl⟩ := e
    exact h.push rfl nofun
  · rename_i body hb
    simp only [Res.ok.injEq, Prod.mk.injEq] at e
    obtain ⟨rfl, rfl⟩ := e
    refine h.push rfl ?_
    rintro p ⟨⟩
    exact decodeBody_propExact hb

theorem decodeChunks_readOk {lz : LZ4} {slack} : ∀ (fuel : Nat) (st st' : LoopState) (b : Bytes) (r : Res Bytes),
    decodeChunks lz slack fuel st b = (st', r) → ReadOk st.chunks st.groups → ReadOk st'.chunks st'.groups := by
  intro fuel
  induction fuel with
  | zero => intro st st' b r e h; cases e; exact h
  | succ fuel ih =>
    intro st st' b r e h
    simp only [decodeChunks] at e
    rcases hd : rawDecode lz b with ⟨raw, rest⟩ | e' | _ <;> simp only [hd] at e
    · rcases hs : stepChunk slack st raw with ⟨st1, _ | _⟩ | e' | _ <;> simp only [hs] at e
      · exact ih _ _ _ _ e (stepChunk_readOk h hs)
      · cases e; exact stepChunk_readOk h hs
      · cases e; exact h
      · cases e; exact h
    · cases e; exact h
    · cases e; exact h

/-! ## The loops -/

theorem instLoop_succeeds (c : InstChunk) (n : BitVec 32) : ∀ (refs : List Id) (i : Nat) (h : Heap Id),
    (c.isService = true → i + refs.length ≤ c.getService.length) → (∀ x ∈ refs, InRange x n) → refs.Nodup →
    (∀ x ∈ refs, x ∉ h.map Prod.fst) → ∃ h', instLoop c n i refs h = .ok h' := by
  intro refs
  induction refs with
  | nil => intro i h _ _ _ _; exact ⟨h, rfl⟩
  | cons ref refs ih =>
    intro i h hs hr hn hd
    simp only [instLoop]
    rw [if_neg (by rw [outOfBounds_eq_false.2 (hr ref (by simp))]; simp)]
    have hnone : h.get? ref = none := Map.get?_eq_none.2 (hd ref (by simp))
    rw [hnone]
    simp only [Option.isSome_none, Bool.false_eq_true, if_false]
    rw [List.nodup_cons] at hn
    have next : ∀ v, ∀ x ∈ refs, x ∉ (Map.set h ref v).map Prod.fst := by
      intro v x hx hm
      rw [Map.fst_set_of_not_mem hnone] at hm
      rcases List.mem_append.1 hm with hm | hm
      · exact hd x (by simp [hx]) hm
      · rw [List.mem_singleton.1 hm] at hx
        exact hn.1 hx
    split
    · rename_i hsv
      have hl := hs hsv
      simp only [List.length_cons] at hl
      rw [List.getElem?_eq_getElem (by omega)]
      exact ih _ _ (fun _ => by omega) (fun x hx => hr x (by simp [hx])) hn.2 (next _)
    · rename_i hsv
      exact ih _ _ (fun h => absurd h hsv) (fun x hx => hr x (by simp [hx])) hn.2 (next _)

theorem parentLoop_flow (ic : Nat) (n : BitVec 32) : ∀ (ps : List (Id × Id)) (i : Nat) (st : DecState),
    ((∀ x ∈ ps.map Prod.fst, InRange x n) → (parentLoop ic n i ps st).2 = .next) ∧
    ((¬ ∀ x ∈ ps.map Prod.fst, InRange x n) → ∃ e, (parentLoop ic n i ps st).2 = .fail e) := by
  intro ps
  induction ps with
  | nil => intro i st; exact ⟨fun _ => rfl, fun h => absurd (by simp) h⟩
  | cons p ps ih =>
    obtain ⟨child, parent⟩ := p
    intro i st
    simp only [parentLoop, List.map_cons, List.forall_mem_cons]
    by_cases hc : outOfBounds child n = true
    · have : ¬ InRange child n := by rw [← outOfBounds_eq_false, hc]; simp
      rw [if_pos hc]
      exact ⟨fun h => absurd h.1 this, fun _ => ⟨_, rfl⟩⟩
    · have hr : InRange child n := outOfBounds_eq_false.1 (by simpa using hc)
      rw [if_neg hc]
      repeat' split
      all_goals
        refine ⟨fun h => (ih _ _).1 h.2, fun h => (ih _ _).2 fun h' => h ⟨hr, h'⟩⟩

theorem get_ok {n : Nat} : ∀ {a : Arr}, ArrOk n a → ∀ i, i < n → ∃ x, a.get i = .ok x := by
  intro a
  induction a with
  | plain t vs =>
    intro h i hi
    simp only [Arr.get]
    rw [List.getElem?_eq_getElem (by rw [h.1]; exact hi)]
    exact ⟨_, rfl⟩
  | optNil p => intro h; exact h.elim
  | optional a p ih =>
    intro h i hi
    simp only [Arr.get]
    have hlt : i < p.length := by rw [h.2]; exact hi
    rw [List.getElem?_eq_getElem hlt]
    cases p[i]
    · exact ⟨_, rfl⟩
    · exact ih h.1 i hi

/-- The element of an Optional array that makes the codec panic. -/
def BadAt (values : Arr) (present : List Bool) (i : Nat) : Prop :=
  present[i]? = some true ∧
    (values.get i = .ok none ∨ ∃ x, values.get i = .ok (some x) ∧ (x.type = .reference ∨ x.type = .sharedString))

theorem decodeValue_none {quat : Quat} {v : Val} (h : v.type = .reference ∨ v.type = .sharedString) :
    decodeValue (ρ := Id) quat v = none := by
  cases v <;> simp_all [decodeValue, Val.type]

theorem propValue_optional {quat : Quat} {h : Heap Id} {shared n values present i} (ha : ArrOk n (.optional values present)) (hi : i < n) :
    (BadAt values present i → propValue quat h shared (.optional values present) i = .panic) ∧
    (¬ BadAt values present i → ∃ x, propValue quat h shared (.optional values present) i = .ok x) := by
  obtain ⟨h1, h2⟩ := ha
  have hp : present[i]? = some present[i] := List.getElem?_eq_getElem (by omega)
  simp only [propValue, BadAt, hp]
  cases present[i]
  · exact ⟨fun h => by simp at h, fun _ => ⟨_, rfl⟩⟩
  · obtain ⟨x, hx⟩ := get_ok h1 i hi
    simp only [hx, Res.ok_bind]
    cases x with
    | none => exact ⟨fun _ => rfl, fun h => absurd ⟨trivial, .inl rfl⟩ h⟩
    | some v =>
      by_cases ht : v.type = .reference ∨ v.type = .sharedString
      · simp only [decodeValue_none ht]
        exact ⟨fun _ => trivial, fun h => absurd ⟨trivial, .inr ⟨v, rfl, ht⟩⟩ h⟩
      · obtain ⟨y, hy⟩ := decodeValue_isSome (quat := quat) (v := v) (fun h => ht (.inl h)) (fun h => ht (.inr h))
        simp only [hy]
        refine ⟨?_, fun _ => ⟨_, rfl⟩⟩
        rintro ⟨-, h | ⟨x, h, h'⟩⟩
        · cases h
        · cases h
          exact absurd h' ht

theorem propValue_exact {quat : Quat} {h : Heap Id} {shared n a} (ha : ArrOk n a) :
    (BadOptional a → ∃ i, i < n ∧ propValue quat h shared a i = .panic) ∧
    (¬ BadOptional a → ∀ i, i < n → ∃ x, propValue quat h shared a i = .ok x) ∧
    ∀ i, i < n → ∀ e, propValue quat h shared a i ≠ .err e := by
  cases a with
  | plain t vs =>
    have := fun i (hi : i < n) => propValue_ne_panic (quat := quat) (h := h) (shared := shared) ha.2 (i := i) (by rw [ha.1]; exact hi)
    refine ⟨fun h => h.elim, fun _ => this, ?_⟩
    intro i hi e he
    obtain ⟨x, hx⟩ := this i hi
    rw [hx] at he
    cases he
  | optNil p => exact ha.elim
  | optional values present =>
    have key := fun i (hi : i < n) => propValue_optional (quat := quat) (h := h) (shared := shared) ha hi
    refine ⟨?_, ?_, ?_⟩
    · rintro ⟨i, hb⟩
      have hi : i < n := by rw [← ha.2]; exact (List.getElem?_eq_some_iff.1 hb.1).1
      exact ⟨i, hi, (key i hi).1 hb⟩
    · intro hb i hi
      exact (key i hi).2 fun h => hb ⟨i, h⟩
    · intro i hi e he
      by_cases hb : BadAt values present i
      · rw [(key i hi).1 hb] at he; cases he
      · obtain ⟨x, hx⟩ := (key i hi).2 hb
        rw [hx] at he; cases he

theorem propLoop_succeeds {value : Nat → Res (Value Id)} {name : Bytes} : ∀ (ids : List Id) (k : Nat) (h : Heap Id),
    (∀ id ∈ ids, id ∈ h.map Prod.fst) →
    ((∀ i, i < ids.length → ∃ x, value (k + i) = .ok x) → ∃ h', propLoop value name k ids h = .ok h') ∧
    ((∀ i, i < ids.length → ∀ e, value (k + i) ≠ .err e) → (∃ i, i < ids.length ∧ value (k + i) = .panic) →
      propLoop value name k ids h = .panic) := by
  intro ids
  induction ids with
  | nil => intro k h _; exact ⟨fun _ => ⟨h, rfl⟩, fun _ => by rintro ⟨i, hi, _⟩; simp at hi⟩
  | cons id ids ih =>
    intro k h hm
    obtain ⟨inst, hg⟩ := Option.isSome_iff_exists.1 (Map.get?_isSome.2 (hm id (by simp)))
    have hnext : ∀ v, ∀ id' ∈ ids, id' ∈ (Map.set h id v).map Prod.fst := by
      intro v id' hid'
      rw [Map.fst_set_of_mem hg]
      exact hm id' (by simp [hid'])
    simp only [propLoop]
    constructor
    · intro hv
      obtain ⟨x, hx⟩ := hv 0 (by simp)
      rw [Nat.add_zero] at hx
      simp only [hx, hg]
      refine (ih _ _ (hnext _)).1 fun i hi => ?_
      have := hv (i + 1) (by simp; omega)
      rwa [show k + (i + 1) = k + 1 + i by omega] at this
    · intro he hp
      rcases hx : value k with x | e | _
      · simp only [hg]
        refine (ih _ _ (hnext _)).2 (fun i hi => ?_) ?_
        · have := he (i + 1) (by simp; omega)
          rwa [show k + (i + 1) = k + 1 + i by omega] at this
        · obtain ⟨i, hi, hp⟩ := hp
          cases i with
          | zero => rw [Nat.add_zero, hx] at hp; cases hp
          | succ i => exact ⟨i, by simp at hi; omega, by rwa [show k + (i + 1) = k + 1 + i by omega] at hp⟩
      · exact absurd hx (he 0 (by simp) e)
      · rfl

/-! ## The chunks -/

/-- The chunk is a PROP chunk that makes the codec panic. -/
def PanicsOn (classes : BitVec 32) (c : Chunk) : Prop :=
  ∃ p a, c.body = .prop p ∧ Within p.classID classes ∧ p.props = some a ∧ BadOptional a

theorem PanicsOn.not_accepts {classes instances : BitVec 32} {pre post : List Chunk} {c : Chunk} (h : PanicsOn classes c) :
    ¬ Accepts classes instances pre c post := by
  obtain ⟨p, a, h1, -, h3, h4⟩ := h
  simp only [Accepts, h1]
  rintro ⟨-, h⟩
  exact h a h3 h4

/-- A model that the decoder has read: the table of classes is right, and the END chunk is the last one. -/
structure ModelOk (f : FormatModel) : Prop where
  read : ReadOk f.chunks f.groupLookup
  ends : ∃ last x, f.chunks = beforeEnd f.chunks ++ [last] ∧ last.body = .end_ x

/-- What the codec does with a chunk that is not END. -/
theorem codecStep_exact {quat : Quat} {f : FormatModel} (hf : ModelOk f) {pre post : List Chunk} {c : Chunk} {st : DecState}
    (hs : beforeEnd f.chunks = pre ++ c :: post) (hk : st.heap.map Prod.fst = declared pre)
    (hn : (st.heap.map Prod.fst).Nodup)
    (hne : ∀ x, c.body ≠ .end_ x)
    (hacc : ∀ pre' c' post', pre = pre' ++ c' :: post' → Accepts f.classCount f.instanceCount pre' c' (post' ++ c :: post)) :
    (Accepts f.classCount f.instanceCount pre c post → (codecStep quat f pre.length st c.body).2 = .next) ∧
    (PanicsOn f.classCount c → (codecStep quat f pre.length st c.body).2 = .panic) ∧
    (¬ Accepts f.classCount f.instanceCount pre c post → ¬ PanicsOn f.classCount c →
      ∃ e, (codecStep quat f pre.length st c.body).2 = .fail e) := by
  obtain ⟨last, x, hl, hx⟩ := hf.ends
  have hch : f.chunks = pre ++ c :: (post ++ [last]) := by rw [hl, hs]; simp
  cases hb : c.body with
  | inst g =>
    have hnp : ¬ PanicsOn f.classCount c := by rintro ⟨p, a, h, _⟩; rw [hb] at h; cases h
    refine ⟨?_, fun h => absurd h hnp, ?_⟩
    · intro ha
      simp only [Accepts, hb] at ha
      obtain ⟨a1, a2, a3, a4, a5⟩ := ha
      simp only [codecStep]
      rw [if_neg (by rw [outOfBounds_eq_false.2 a1]; simp)]
      rw [if_neg (by
        cases hsv : g.isService
        · simp
        · simp [a2 hsv])]
      obtain ⟨h', hh⟩ := instLoop_succeeds g f.instanceCount g.ids 0 st.heap (fun h => by rw [a2 h]; omega)
        (fun x hx => (a4 x hx).1) a3 (fun x hx => by rw [hk]; exact (a4 x hx).2)
      rw [hh]
      simp only
      have hgrp : f.groupLookup.get? g.classID = some (pre.length, g) := by
        rw [hf.read.groups]
        refine ⟨pre, c, post ++ [last], hch, rfl, hb, rfl, ?_⟩
        intro y hy g' hg'
        rcases List.mem_append.1 hy with hy | hy
        · exact a5 y hy g' hg'
        · rw [List.mem_singleton.1 hy, hx] at hg'
          cases hg'
      rw [hgrp, if_neg (by simp)]
    · intro ha _
      rcases hc : codecStep quat f pre.length st c.body with ⟨st', fl⟩
      rw [hb] at hc
      rw [hc]
      cases fl with
      | fail e => exact ⟨e, rfl⟩
      | stop =>
        obtain ⟨-, y, hy⟩ := codecStep_stop hc
        cases hy
      | panic =>
        exfalso
        simp only [codecStep] at hc
        split at hc
        · cases hc
        split at hc
        · cases hc
        rename_i hsv
        have := instLoop_ne_panic g f.instanceCount g.ids 0 st.heap (by
          intro hs; simp [hs] at hsv; omega)
        split at hc
        · contradiction
        · cases hc
        · split at hc <;> cases hc
      | next =>
        exfalso
        apply ha
        obtain ⟨⟨k1, k2, k3, g0, k4⟩, k5, k6, -⟩ := codecStep_ok hc hn
        rw [k5, hk] at k6
        simp only [Body.ids] at k6
        rw [List.nodup_append] at k6
        simp only [Accepts, hb]
        refine ⟨k1, k2, k6.2.1, ?_, ?_⟩
        · intro id hid
          exact ⟨k3 id hid, fun hd => k6.2.2 id hd id hid rfl⟩
        · intro c' hc' g' hg' he
          obtain ⟨pre2, c2, post2, e1, e2, e3, e4, e5⟩ := (hf.read.groups _ _ _).1 k4
          rw [hch] at e1
          have := List.append_inj e1 e2.symm
          obtain ⟨-, e6⟩ := this
          simp only [List.cons.injEq] at e6
          exact e5 c' (by rw [← e6.2]; simp [hc']) g' hg' he
  | prop p =>
    obtain ⟨pre', c', mid, g, e1, e2, e3, e4, e5⟩ := hf.read.props pre c (post ++ [last]) p hch hb
    have hacc' := hacc pre' c' mid e1
    simp only [Accepts, e2] at hacc'
    obtain ⟨b1, b2, b3, b4, b5⟩ := hacc'
    have hgrp : f.groupLookup.get? p.classID = some (pre'.length, g) := by
      rw [hf.read.groups]
      refine ⟨pre', c', mid ++ c :: (post ++ [last]), by rw [hch, e1]; simp, rfl, e2, e3, ?_⟩
      intro y hy g' hg' he
      rcases List.mem_append.1 hy with hy | hy
      · exact e4 y hy g' hg' he
      · rcases List.mem_cons.1 hy with rfl | hy
        · rw [hb] at hg'; cases hg'
        · rcases List.mem_append.1 hy with hy | hy
          · exact b5 y (by simp [hy]) g' hg' (he.trans e3.symm)
          · rw [List.mem_singleton.1 hy, hx] at hg'
            cases hg'
    have hids : ∀ id ∈ g.ids, id ∈ st.heap.map Prod.fst := by
      intro id hid
      rw [hk, e1, declared]
      rw [List.flatMap_append, List.flatMap_cons, e2]
      exact List.mem_append_right _ (List.mem_append_left _ hid)
    simp only [codecStep]
    by_cases hw : Within p.classID f.classCount
    · rw [if_neg (by rw [outOfBounds_eq_false.2 hw]; simp), hgrp]
      simp only
      cases ha : p.props with
      | none =>
        simp only
        refine ⟨fun _ => trivial, ?_, ?_⟩
        · rintro ⟨p', a, h1, -, h3, -⟩
          rw [hb] at h1
          cases h1
          rw [ha] at h3
          cases h3
        · intro h
          refine absurd ?_ h
          simp only [Accepts, hb]
          exact ⟨hw, fun a h => by rw [ha] at h; cases h⟩
      | some a =>
        have hao := e5 a ha
        simp only
        rw [if_neg (by rw [hao.len]; simp)]
        have hv := propValue_exact (quat := quat) (h := st.heap) (shared := st.shared) hao
        have hloop := propLoop_succeeds (value := propValue quat st.heap st.shared a) (name := p.name) g.ids 0 st.heap hids
        simp only [Nat.zero_add] at hloop
        by_cases hbad : BadOptional a
        · have hp := hloop.2 hv.2.2 (hv.1 hbad)
          rw [hp]
          have hpan : PanicsOn f.classCount c := ⟨p, a, hb, hw, ha, hbad⟩
          exact ⟨fun h => absurd h hpan.not_accepts, fun _ => rfl, fun _ h => absurd hpan h⟩
        · obtain ⟨h', hh⟩ := hloop.1 (hv.2.1 hbad)
          rw [hh]
          refine ⟨fun _ => rfl, ?_, ?_⟩
          · rintro ⟨p', a', h1, -, h3, h4⟩
            rw [hb] at h1
            cases h1
            rw [ha] at h3
            cases h3
            exact absurd h4 hbad
          · intro h
            refine absurd ?_ h
            simp only [Accepts, hb]
            exact ⟨hw, fun a' h => by rw [ha] at h; cases h; exact hbad⟩
    · rw [if_pos (by
        cases ho : outOfBounds p.classID f.classCount
        · exact absurd (outOfBounds_eq_false.1 ho) hw
        · rfl)]
      refine ⟨?_, ?_, fun _ _ => ⟨_, rfl⟩⟩
      · simp only [Accepts, hb]
        exact fun h => absurd h.1 hw
      · rintro ⟨p', a', h1, h2, -⟩
        rw [hb] at h1
        cases h1
        exact absurd h2 hw
  | parent p =>
    have hnp : ¬ PanicsOn f.classCount c := by rintro ⟨p, a, h, _⟩; rw [hb] at h; cases h
    have hacc : Accepts f.classCount f.instanceCount pre c post ↔ p.version = 0#8 ∧ p.parents.length = p.children.length ∧
        ∀ id ∈ p.children, Within id f.instanceCount := by simp only [Accepts, hb]
    rw [hacc]
    simp only [codecStep]
    refine ⟨?_, fun h => absurd h hnp, ?_⟩
    · rintro ⟨h1, h2, h3⟩
      rw [if_neg (by simp [h1]), if_neg (by simp [h2])]
      refine (parentLoop_flow _ _ _ _ _).1 ?_
      rw [List.map_fst_zip (by omega)]
      exact h3
    · intro h _
      by_cases h1 : p.version = 0#8
      · rw [if_neg (by simp [h1])]
        by_cases h2 : p.parents.length = p.children.length
        · rw [if_neg (by simp [h2])]
          refine (parentLoop_flow _ _ _ _ _).2 ?_
          rw [List.map_fst_zip (by omega)]
          exact fun h3 => h ⟨h1, h2, h3⟩
        · rw [if_pos h2]
          exact ⟨_, rfl⟩
      · rw [if_pos h1]
        exact ⟨_, rfl⟩
  | end_ x => exact absurd hb (hne x)
  | metadata vs =>
    have ha : Accepts f.classCount f.instanceCount pre c post := by simp [Accepts, hb]
    exact ⟨fun _ => rfl, fun h => absurd ha h.not_accepts, fun h => absurd ha h⟩
  | shared vs =>
    have ha : Accepts f.classCount f.instanceCount pre c post := by simp [Accepts, hb]
    exact ⟨fun _ => rfl, fun h => absurd ha h.not_accepts, fun h => absurd ha h⟩
  | unknown a b =>
    have ha : Accepts f.classCount f.instanceCount pre c post := by simp [Accepts, hb]
    exact ⟨fun _ => rfl, fun h => absurd ha h.not_accepts, fun h => absurd ha h⟩
  | errored a b =>
    have ha : Accepts f.classCount f.instanceCount pre c post := by simp [Accepts, hb]
    exact ⟨fun _ => rfl, fun h => absurd ha h.not_accepts, fun h => absurd ha h⟩

theorem beforeEnd_mem {cs : List Chunk} : ∀ c ∈ beforeEnd cs, ∀ x, c.body ≠ .end_ x := by
  induction cs with
  | nil => simp [beforeEnd]
  | cons c cs ih =>
    intro c' hc' x hx
    cases hb : c.body <;> simp only [beforeEnd, hb] at hc'
    case end_ => cases hc'
    all_goals
      rcases List.mem_cons.1 hc' with rfl | hc'
      · rw [hb] at hx; cases hx
      · exact ih c' hc' x hx

/-- What the codec loop does from the chunk after `pre` on. -/
theorem codecLoop_exact {quat : Quat} {f : FormatModel} (hf : ModelOk f) (last : Chunk) (y : Bytes) (hlast : last.body = .end_ y) :
    ∀ (cs pre : List Chunk) (st : DecState),
    beforeEnd f.chunks = pre ++ cs → st.heap.map Prod.fst = declared pre → (st.heap.map Prod.fst).Nodup →
    (∀ pre' c' post', pre = pre' ++ c' :: post' → Accepts f.classCount f.instanceCount pre' c' (post' ++ cs)) →
    ((∀ p c q, cs = p ++ c :: q → Accepts f.classCount f.instanceCount (pre ++ p) c q) →
      (codecLoop quat f pre.length (cs ++ [last]) st).2 = .stop) ∧
    ∀ p c q, cs = p ++ c :: q →
      (∀ p' c' q', p = p' ++ c' :: q' → Accepts f.classCount f.instanceCount (pre ++ p') c' (q' ++ c :: q)) →
      (PanicsOn f.classCount c → (codecLoop quat f pre.length (cs ++ [last]) st).2 = .panic) ∧
      (¬ Accepts f.classCount f.instanceCount (pre ++ p) c q → ¬ PanicsOn f.classCount c →
        ∃ e, (codecLoop quat f pre.length (cs ++ [last]) st).2 = .fail e) := by
  intro cs
  induction cs with
  | nil =>
    intro pre st _ _ _ _
    refine ⟨fun _ => ?_, fun p c q h => by simp at h⟩
    simp [codecLoop, hlast, codecStep]
  | cons c cs ih =>
    intro pre st hs hk hn hacc
    obtain ⟨s1, s2, s3⟩ := codecStep_exact (quat := quat) hf hs hk hn
      (fun x hx => beforeEnd_mem (cs := f.chunks) c (by rw [hs]; simp) x hx) hacc
    rcases hc : codecStep quat f pre.length st c.body with ⟨st', fl⟩
    rw [hc] at s1 s2 s3
    have hloop : codecLoop quat f pre.length (c :: cs ++ [last]) st =
        (match (st', fl) with
        | (st, .next) => codecLoop quat f (pre.length + 1) (cs ++ [last]) st
        | r => r) := by
      rw [List.cons_append, codecLoop, hc]
      cases fl <;> rfl
    rw [hloop]
    by_cases ha : Accepts f.classCount f.instanceCount pre c cs
    · have hfl : fl = .next := s1 ha
      subst hfl
      simp only
      obtain ⟨-, g2, g3, -⟩ := codecStep_ok hc hn
      obtain ⟨i1, i2⟩ := ih (pre ++ [c]) st' (by rw [hs]; simp) (by rw [declared_snoc, g2, hk]) g3 (by
        intro pre' c' post' h
        rcases snoc_split h with ⟨rfl, rfl, rfl⟩ | ⟨post2, rfl, rfl⟩
        · simpa using ha
        · have := hacc pre' c' post2 rfl
          simpa using this)
      rw [List.length_append, List.length_singleton] at i1 i2
      refine ⟨?_, ?_⟩
      · intro h
        refine i1 ?_
        rintro p d q rfl
        have := h (c :: p) d q rfl
        simpa using this
      · intro p d q h h'
        cases p with
        | nil =>
          simp only [List.nil_append, List.cons.injEq] at h
          obtain ⟨rfl, rfl⟩ := h
          exact ⟨fun h => absurd ha h.not_accepts, fun h =>
            absurd (show Accepts f.classCount f.instanceCount (pre ++ []) c cs by rw [List.append_nil]; exact ha) h⟩
        | cons c0 p =>
          simp only [List.cons_append, List.cons.injEq] at h
          obtain ⟨rfl, rfl⟩ := h
          have := i2 p d q rfl (by
            intro p' c' q' hp
            have := h' (c :: p') c' q' (by rw [hp]; rfl)
            simpa using this)
          simpa using this
    · refine ⟨fun h => absurd (by simpa using h [] c cs rfl) ha, ?_⟩
      intro p d q h h'
      cases p with
      | nil =>
        simp only [List.nil_append, List.cons.injEq] at h
        obtain ⟨rfl, rfl⟩ := h
        refine ⟨fun h => ?_, fun h1 h2 => ?_⟩
        · have hfl : fl = .panic := s2 h
          subst hfl
          rfl
        · obtain ⟨e, he⟩ := s3 ha h2
          simp only at he
          subst he
          exact ⟨e, rfl⟩
      | cons c0 p =>
        simp only [List.cons_append, List.cons.injEq] at h
        obtain ⟨rfl, rfl⟩ := h
        have := h' [] c p rfl
        exact absurd (by simpa using this) ha

/-- The three outcomes of the codec. -/
theorem codecDecode_exact {quat : Quat} {f : FormatModel} (hf : ModelOk f) :
    ((∀ pre c post, beforeEnd f.chunks = pre ++ c :: post → Accepts f.classCount f.instanceCount pre c post) →
      ∃ x, (codecDecode quat f).2 = .ok x) ∧
    ∀ pre c post, ReachesChunk f pre c post →
      (PanicsOn f.classCount c → (codecDecode quat f).2 = .panic) ∧
      (¬ Accepts f.classCount f.instanceCount pre c post → ¬ PanicsOn f.classCount c → ∃ e, (codecDecode quat f).2 = .err e) := by
  obtain ⟨last, x, hl, hx⟩ := hf.ends
  obtain ⟨h1, h2⟩ := codecLoop_exact (quat := quat) hf last x hx (beforeEnd f.chunks) [] {} rfl rfl List.nodup_nil
    (fun pre' c' post' h => by simp at h)
  rw [← hl] at h1 h2
  simp only [codecDecode, List.length_nil] at h1 h2 ⊢
  rcases hc : codecLoop quat f 0 f.chunks {} with ⟨st, fl⟩
  rw [hc] at h1 h2
  refine ⟨?_, ?_⟩
  · intro h
    have := h1 (by simpa using h)
    simp only at this
    subst this
    exact ⟨_, rfl⟩
  · intro pre c post h
    obtain ⟨g1, g2⟩ := h2 pre c post h.1 (by simpa using h.2)
    refine ⟨fun h => ?_, fun h h' => ?_⟩
    · have := g1 h
      simp only at this
      subst this
      rfl
    · obtain ⟨e, he⟩ := g2 (by simpa using h) h'
      simp only at he
      subst he
      exact ⟨e, rfl⟩

/-- Either all chunks are accepted, or there is a first one that is not. -/
theorem accepted_or (f : FormatModel) :
    (∀ pre c post, beforeEnd f.chunks = pre ++ c :: post → Accepts f.classCount f.instanceCount pre c post) ∨
    ∃ pre c post, ReachesChunk f pre c post ∧ ¬ Accepts f.classCount f.instanceCount pre c post := by
  have key : ∀ (cs pre : List Chunk), beforeEnd f.chunks = pre ++ cs →
      (∀ pre' c' post', pre = pre' ++ c' :: post' → Accepts f.classCount f.instanceCount pre' c' (post' ++ cs)) →
      (∀ pre' c post, beforeEnd f.chunks = pre' ++ c :: post → Accepts f.classCount f.instanceCount pre' c post) ∨
      ∃ pre c post, ReachesChunk f pre c post ∧ ¬ Accepts f.classCount f.instanceCount pre c post := by
    intro cs
    induction cs with
    | nil =>
      intro pre h h'
      left
      intro pre' c post e
      rw [h, List.append_nil] at e
      simpa using h' pre' c post e
    | cons c cs ih =>
      intro pre h h'
      by_cases ha : Accepts f.classCount f.instanceCount pre c cs
      · refine ih (pre ++ [c]) (by rw [h]; simp) ?_
        intro pre' c' post' e
        rcases snoc_split e with ⟨rfl, rfl, rfl⟩ | ⟨post2, rfl, rfl⟩
        · simpa using ha
        · have := h' pre' c' post2 rfl
          simpa using this
      · exact .inr ⟨pre, c, cs, ⟨h, h'⟩, ha⟩
  exact key (beforeEnd f.chunks) [] rfl (fun pre' c' post' h => by simp at h)

end Rbxl

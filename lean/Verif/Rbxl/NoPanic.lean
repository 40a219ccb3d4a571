import Verif.Rbxl.CodecLemmas
import Verif.Rbxl.FileLemmas
import Verif.Props.Values
/-!
# Which inputs of the binary decoder can panic
-/
namespace Rbxl
open Go Rbxfile

theorem deinterleave_ne_panic (b : Bytes) (size : Nat) : deinterleave b size ≠ .panic := by
  simp only [deinterleave]
  split
  · simp
  split
  · simp
  rename_i h0 h1
  obtain ⟨out, h, _⟩ := transpose_spec b size (b.length / size) (by omega) (by
    have := Nat.div_add_mod b.length size; omega)
  rw [h]; simp

/-- All elements have the type of the array. -/
def Typed (t : TypeID) (vs : List Val) : Prop := ∀ v ∈ vs, v.type = t

/-- The element types whose arrays cannot make the decoder panic. -/
def SafeType (t : TypeID) : Prop := t ≠ .cframe ∧ t ≠ .cframeQuat ∧ t ≠ .optional

theorem elemsFrom_ok {t : TypeID} (ht : t ≠ .optional) : ∀ (n i : Nat) (b : Bytes),
    elemsFrom t i n b ≠ .panic ∧ ∀ vs m, elemsFrom t i n b = .ok (vs, m) →
      vs.length = n ∧ Typed t vs := by
  intro n
  induction n with
  | zero => intro i b; simp [elemsFrom, Typed]
  | succ n ih =>
    intro i b
    simp only [elemsFrom]
    have hg := (Val.fromBytes_good t ht b).1
    rcases hv : Val.fromBytes t b with ⟨v, nn⟩ | e | _
    · have hty := Props.C56_decode_type _ _ _ _ hv
      obtain ⟨h1, h2⟩ := ih (i + 1) (b.drop nn)
      simp only [Res.mapErr_ok, Res.ok_bind]
      rcases he : elemsFrom t (i + 1) n (b.drop nn) with ⟨vs, m⟩ | e | _
      · obtain ⟨h3, h4⟩ := h2 _ _ he
        simp only [Res.ok_bind, Res.pure_eq, Res.ok.injEq, Prod.mk.injEq]
        refine ⟨by simp, ?_⟩
        rintro vs' m' ⟨rfl, rfl⟩
        refine ⟨by simp [h3], ?_⟩
        intro x hx
        rcases List.mem_cons.1 hx with rfl | hx
        · exact hty
        · exact h4 x hx
      · simp
      · exact absurd he h1
    · simp
    · exact absurd hv hg

theorem refsFrom_ok : ∀ (n i : Nat) (prev : BitVec 32) (b : Bytes),
    refsFrom i n prev b ≠ .panic ∧ ∀ vs m, refsFrom i n prev b = .ok (vs, m) →
      vs.length = n ∧ Typed .reference vs := by
  intro n
  induction n with
  | zero => intro i p b; simp [refsFrom, Typed]
  | succ n ih =>
    intro i p b
    simp only [refsFrom]
    have hg := (Val.fromBytes_good .reference (by simp) b).1
    rcases hv : Val.fromBytes .reference b with ⟨v, nn⟩ | e | _
    · obtain ⟨h1, h2⟩ := ih (i + 1) (v.refNum + p) (b.drop nn)
      simp only [Res.mapErr_ok, Res.ok_bind]
      rcases he : refsFrom (i + 1) n (v.refNum + p) (b.drop nn) with ⟨vs, m⟩ | e | _
      · obtain ⟨h3, h4⟩ := h2 _ _ he
        simp only [Res.ok_bind, Res.pure_eq, Res.ok.injEq, Prod.mk.injEq]
        refine ⟨by simp, ?_⟩
        rintro vs' m' ⟨rfl, rfl⟩
        refine ⟨by simp [h3], ?_⟩
        intro x hx
        rcases List.mem_cons.1 hx with rfl | hx
        · rfl
        · exact h4 x hx
      · simp
      · exact absurd he h1
    · simp
    · exact absurd hv hg

theorem plainFrom_ok {slack : Nat} {t : TypeID} (ht : SafeType t) (n : Nat) (b : Bytes) :
    plainFrom slack t n b ≠ .panic ∧ ∀ vs m b', plainFrom slack t n b = .ok (vs, m, b') →
      vs.length = n ∧ Typed t vs := by
  obtain ⟨h1, h2, h3⟩ := ht
  have key : ∀ (x : Res Bytes), x ≠ .panic → ∀ (k : Bytes → Res (List Val × Nat)),
      (∀ b, k b ≠ .panic ∧ ∀ vs m, k b = .ok (vs, m) → vs.length = n ∧ Typed t vs) →
      (x >>= fun b => k b >>= fun y => pure (y.1, y.2, b)) ≠ .panic ∧
      ∀ vs m b', (x >>= fun b => k b >>= fun y => pure (y.1, y.2, b)) = .ok (vs, m, b') →
      vs.length = n ∧ Typed t vs := by
    intro x hx k hk
    cases x with
    | ok b =>
      obtain ⟨k1, k2⟩ := hk b
      simp only [Res.ok_bind]
      rcases hkb : k b with ⟨vs, m⟩ | e | _
      · simp only [Res.ok_bind, Res.pure_eq, Res.ok.injEq, Prod.mk.injEq]
        refine ⟨by simp, ?_⟩
        rintro vs' m' b' ⟨rfl, rfl, _⟩
        exact k2 _ _ hkb
      · simp
      · exact absurd hkb k1
    | err e => simp
    | panic => exact absurd rfl hx
  have hx : (if interleaved t then
      match t.size with
      | none => .panic
      | some size => deinterleave b size
    else pure b : Res Bytes) ≠ .panic := by
    split
    · cases t <;> first | exact deinterleave_ne_panic _ _ | simp_all [interleaved]
    · simp
  cases t <;> first
    | exact absurd rfl h1
    | exact absurd rfl h2
    | exact absurd rfl h3
    | exact key _ hx _ (fun b => refsFrom_ok n 0 0 b)
    | exact key _ hx _ (fun b => elemsFrom_ok (by simp) n 0 b)

theorem refArrayFrom_ok (b : Bytes) (n : Nat) : refArrayFrom b n ≠ .panic := by
  simp only [refArrayFrom]
  refine Res.bind_ne_panic (plainFrom_ok (by simp [SafeType]) n b).1 ?_
  rintro ⟨vs, m, b'⟩ _
  simp

/-- The array starts with the byte of a safe type, or with an unknown type. -/
def SafeArray (b : Bytes) : Prop :=
  ∀ tb rest t, b = tb :: rest → TypeID.ofByte tb = some t → SafeType t

theorem typeArrayFrom_ok {slack n : Nat} {b : Bytes} (hb : SafeArray b) :
    typeArrayFrom slack n b ≠ .panic ∧ ∀ a m b', typeArrayFrom slack n b = .ok (a, m, b') →
      ∃ t vs, a = .plain t vs ∧ vs.length = n ∧ Typed t vs := by
  cases b with
  | nil => simp [typeArrayFrom]
  | cons tb rest =>
    simp only [typeArrayFrom]
    split
    · simp
    rename_i hval
    cases ht : TypeID.ofByte tb with
    | none =>
      exfalso
      obtain ⟨t, h⟩ := (Props.C56_ids tb).1.1 (by simpa using hval)
      rw [(Props.C56_ids tb).2.1 t h] at ht
      cases ht
    | some t =>
      have hs := hb tb rest t rfl ht
      have hp := plainFrom_ok (slack := slack) hs n rest
      have : ∀ (x : Res (List Val × Nat × Bytes)), x ≠ .panic →
          (∀ vs m b', x = .ok (vs, m, b') → vs.length = n ∧ Typed t vs) →
          (x >>= fun y => (pure (.plain t y.1, 1 + y.2.1, tb :: y.2.2) : Res (Arr × Nat × Bytes))) ≠
            .panic ∧
          ∀ a m b', (x >>= fun y => (pure (.plain t y.1, 1 + y.2.1, tb :: y.2.2) :
            Res (Arr × Nat × Bytes))) = .ok (a, m, b') →
          ∃ t vs, a = .plain t vs ∧ vs.length = n ∧ Typed t vs := by
        intro x hx hok
        rcases x with ⟨vs, m, b'⟩ | e | _
        · simp only [Res.ok_bind, Res.pure_eq, Res.ok.injEq, Prod.mk.injEq]
          refine ⟨by simp, ?_⟩
          rintro a m b' ⟨rfl, _, _⟩
          exact ⟨t, vs, rfl, hok _ _ _ rfl⟩
        · simp
        · exact absurd rfl hx
      cases t <;> first | exact absurd rfl hs.2.2 | exact this _ hp.1 hp.2

/-! ### chunks -/

theorem num8_ne_panic (b : Bytes) : num8 b ≠ .panic := by
  cases b <;> simp [num8, readU8]

theorem readString_ne_panic (b : Bytes) : readString b ≠ .panic :=
  Res.bind_ne_panic (num32_ne_panic b) fun _ _ => takeN_ne_panic _ _

theorem liftRes_ne_panic {α : Type} {x : Res α} (h : x ≠ .panic) (b : Bytes) :
    liftRes x b ≠ .panic := Res.bind_ne_panic h fun _ _ => by simp

theorem readRefs_ne_panic (n : BitVec 32) (b : Bytes) : readRefs n b ≠ .panic := by
  simp only [readRefs]
  split
  · simp
  · exact Res.bind_ne_panic (takeN_ne_panic _ _) fun _ _ =>
      liftRes_ne_panic (refArrayFrom_ok _ _) _

theorem decodeInst_ne_panic (b : Bytes) : decodeInst b ≠ .panic := by
  simp only [decodeInst]
  refine Res.bind_ne_panic (num32_ne_panic _) fun _ _ => ?_
  refine Res.bind_ne_panic (readString_ne_panic _) fun _ _ => ?_
  refine Res.bind_ne_panic (num8_ne_panic _) fun _ _ => ?_
  refine Res.bind_ne_panic (num32_ne_panic _) fun _ _ => ?_
  refine Res.bind_ne_panic (readRefs_ne_panic _ _) fun _ _ => ?_
  dsimp only
  split
  · exact Res.bind_ne_panic (takeN_ne_panic _ _) fun _ _ => by simp
  · simp

theorem decodeParent_ne_panic (b : Bytes) : decodeParent b ≠ .panic := by
  simp only [decodeParent]
  refine Res.bind_ne_panic (num8_ne_panic _) fun _ _ => ?_
  refine Res.bind_ne_panic (num32_ne_panic _) fun _ _ => ?_
  refine Res.bind_ne_panic (readRefs_ne_panic _ _) fun _ _ => ?_
  exact Res.bind_ne_panic (readRefs_ne_panic _ _) fun _ _ => by simp

theorem rdMany_ne_panic {α : Type} {rd : Rd α} (h : ∀ b, rd b ≠ .panic) : ∀ (n : Nat) (b : Bytes),
    rdMany rd n b ≠ .panic := by
  intro n
  induction n with
  | zero => intro b; simp [rdMany]
  | succ n ih =>
    intro b
    simp only [rdMany]
    exact Res.bind_ne_panic (h _) fun _ _ => Res.bind_ne_panic (ih _) fun _ _ => by simp

theorem decodeMeta_ne_panic (b : Bytes) : decodeMeta b ≠ .panic := by
  refine Res.bind_ne_panic (num32_ne_panic _) fun _ _ => rdMany_ne_panic (fun b => ?_) _ _
  exact Res.bind_ne_panic (readString_ne_panic _) fun _ _ =>
    Res.bind_ne_panic (readString_ne_panic _) fun _ _ => by simp

theorem decodeShared_ne_panic (b : Bytes) : decodeShared b ≠ .panic := by
  refine Res.bind_ne_panic (num32_ne_panic _) fun _ _ => ?_
  refine Res.bind_ne_panic (num32_ne_panic _) fun _ _ => ?_
  refine Res.bind_ne_panic (rdMany_ne_panic (fun b => ?_) _ _) fun _ _ => by simp
  exact Res.bind_ne_panic (takeN_ne_panic _ _) fun _ _ =>
    Res.bind_ne_panic (readString_ne_panic _) fun _ _ => by simp

/-- The property array of a PROP payload: what follows the class id and the name. -/
def propArray (payload : Bytes) : Option Bytes :=
  match (do let _ ← num32; readString : Rd Bytes) payload with
  | .ok (_, r) => some r
  | _ => none

/-- The frame is not a PROP chunk whose array has a CFrame or Optional type. -/
def SafeFrame (raw : Raw) : Prop :=
  raw.sig = sigPROP → ∀ a, propArray raw.payload = some a → SafeArray a

theorem decodeProp_ok {slack g} {b : Bytes} (h : ∀ a, propArray b = some a → SafeArray a) :
    decodeProp slack g b ≠ .panic ∧ ∀ c r, decodeProp slack g b = .ok (c, r) →
      ∃ i inst, g.get? c.classID = some (i, inst) ∧
        ∀ a, c.props = some a → ∃ t vs, a = .plain t vs ∧ vs.length = inst.ids.length ∧ Typed t vs := by
  simp only [decodeProp, rd_bind]
  simp only [propArray, rd_bind] at h
  have h1 := num32_ne_panic b
  rcases hn : num32 b with ⟨cid, r⟩ | e | _
  · simp only [Res.ok_bind]
    cases hg : g.get? cid with
    | none => simp [liftRes]
    | some x =>
      obtain ⟨i, inst⟩ := x
      simp only [rd_bind]
      simp only [hn, Res.ok_bind] at h
      have h2 := readString_ne_panic r
      rcases hs : readString r with ⟨name, r'⟩ | e | _
      · simp only [Res.ok_bind, takeAll]
        simp only [hs] at h
        split
        · simp only [rd_pure, Res.ok.injEq, Prod.mk.injEq]
          refine ⟨by simp, ?_⟩
          rintro c r ⟨rfl, _⟩
          exact ⟨i, inst, hg, by simp⟩
        · obtain ⟨h3, h4⟩ := typeArrayFrom_ok (slack := slack r') (n := inst.ids.length) (h r' rfl)
          rcases ha : typeArrayFrom (slack r') inst.ids.length r' with ⟨a, m, b'⟩ | e | _
          · simp only [rd_bind, liftRes, Res.ok_bind, Res.pure_eq, rd_pure, Res.ok.injEq,
              Prod.mk.injEq]
            refine ⟨by simp, ?_⟩
            rintro c r ⟨rfl, _⟩
            refine ⟨i, inst, hg, ?_⟩
            intro a' e
            simp only [Option.some.injEq] at e
            subst e
            exact h4 _ _ _ ha
          · simp [liftRes]
          · exact absurd ha h3
      · simp
      · exact absurd hs h2
  · simp
  · exact absurd hn h1

/-- What is known of the chunks read so far. -/
structure LoopOk (st : LoopState) : Prop where
  groups : ∀ (k : BitVec 32) (i : Nat) (inst : InstChunk), st.groups.get? k = some (i, inst) →
    inst.classID = k ∧ ∃ c, st.chunks[i]? = some c ∧ c.body = .inst inst
  props : ∀ (j : Nat) (c : Chunk) (p : PropChunk), st.chunks[j]? = some c → c.body = .prop p →
    (∃ (i : Nat) (c' : Chunk) (inst : InstChunk), i < j ∧ st.chunks[i]? = some c' ∧ c'.body = .inst inst ∧
      inst.classID = p.classID) ∧
    ∀ a, p.props = some a → ∃ t vs, a = .plain t vs ∧ Typed t vs

theorem LoopOk.push {st st' : LoopState} {c : Chunk} (h : LoopOk st)
    (hc : st'.chunks = st.chunks ++ [c])
    (hg : ∀ k i inst, st'.groups.get? k = some (i, inst) → st.groups.get? k = some (i, inst) ∨
      (i = st.chunks.length ∧ inst.classID = k ∧ c.body = .inst inst))
    (hp : ∀ p, c.body = .prop p → (∃ i inst, st.groups.get? p.classID = some (i, inst)) ∧
      ∀ a, p.props = some a → ∃ t vs, a = .plain t vs ∧ Typed t vs) : LoopOk st' := by
  have old : ∀ {i : Nat} {x : Chunk}, st.chunks[i]? = some x → st'.chunks[i]? = some x := by
    intro i x hx
    have hi : i < st.chunks.length := by
      by_cases hi : i < st.chunks.length
      · exact hi
      · rw [List.getElem?_eq_none (by omega)] at hx; cases hx
    rw [hc, List.getElem?_append_left hi]; exact hx
  constructor
  · intro k i inst hk
    rcases hg k i inst hk with hk | ⟨rfl, h1, h2⟩
    · obtain ⟨h1, c', h2, h3⟩ := h.groups k i inst hk
      exact ⟨h1, c', old h2, h3⟩
    · exact ⟨h1, c, by rw [hc]; simp, h2⟩
  · intro j c' p hj hb
    rw [hc] at hj
    by_cases hlt : j < st.chunks.length
    · rw [List.getElem?_append_left hlt] at hj
      obtain ⟨⟨i, ci, inst, h1, h2, h3, h4⟩, h5⟩ := h.props j c' p hj hb
      exact ⟨⟨i, ci, inst, h1, old h2, h3, h4⟩, h5⟩
    · rw [List.getElem?_append_right (by omega)] at hj
      have hj0 : j = st.chunks.length := by
        by_cases e : j = st.chunks.length
        · exact e
        · rw [List.getElem?_eq_none (by simp; omega)] at hj; cases hj
      subst hj0
      simp at hj
      subst hj
      obtain ⟨⟨i, inst, hgi⟩, h5⟩ := hp p hb
      obtain ⟨h1, ci, h2, h3⟩ := h.groups _ i inst hgi
      have hi : i < st.chunks.length := by
        by_cases hi : i < st.chunks.length
        · exact hi
        · rw [List.getElem?_eq_none (by omega)] at h2; cases h2
      exact ⟨⟨i, ci, inst, hi, old h2, h3, h1⟩, h5⟩

theorem decodeBody_ok {slack g} {raw : Raw} (hs : SafeFrame raw) :
    decodeBody slack g raw ≠ some .panic ∧ ∀ p, decodeBody slack g raw = some (.ok (.prop p)) →
      (∃ i inst, g.get? p.classID = some (i, inst)) ∧
      ∀ a, p.props = some a → ∃ t vs, a = .plain t vs ∧ Typed t vs := by
  have np : ∀ {α : Type} (f : Rd α) (k : α → Body), (∀ b, f b ≠ .panic) →
      (some (do let (a, _) ← f raw.payload; pure (k a)) : Option (Res Body)) ≠ some .panic := by
    intro α f k hf h
    simp only [Option.some.injEq] at h
    exact Res.bind_ne_panic (hf raw.payload) (fun _ _ => by simp) h
  have nprop : ∀ {α : Type} (f : Rd α) (k : α → Body), (∀ x p, k x ≠ .prop p) →
      ∀ p, (some (do let (a, _) ← f raw.payload; pure (k a)) : Option (Res Body)) ≠
        some (.ok (.prop p)) := by
    intro α f k hk p h
    simp only [Option.some.injEq, Res.bind_eq_ok] at h
    obtain ⟨x, _, h⟩ := h
    simp only [Res.pure_eq, Res.ok.injEq] at h
    exact hk _ _ h
  simp only [decodeBody]
  split
  · exact ⟨np _ _ decodeMeta_ne_panic, fun p h => absurd h (nprop _ _ (by simp) p)⟩
  split
  · exact ⟨np _ _ decodeShared_ne_panic, fun p h => absurd h (nprop _ _ (by simp) p)⟩
  split
  · exact ⟨np _ _ decodeInst_ne_panic, fun p h => absurd h (nprop _ _ (by simp) p)⟩
  split
  · rename_i hsig
    obtain ⟨h1, h2⟩ := decodeProp_ok (slack := slack) (g := g) (hs hsig)
    constructor
    · intro h
      simp only [Option.some.injEq] at h
      exact Res.bind_ne_panic h1 (fun _ _ => by simp) h
    · intro p h
      simp only [Option.some.injEq, Res.bind_eq_ok] at h
      obtain ⟨⟨c, r⟩, hd, h⟩ := h
      simp only [Res.pure_eq, Res.ok.injEq, Body.prop.injEq] at h
      subst h
      obtain ⟨i, inst, hg, ha⟩ := h2 _ _ hd
      exact ⟨⟨i, inst, hg⟩, fun a e => by
        obtain ⟨t, vs, h1, _, h3⟩ := ha a e
        exact ⟨t, vs, h1, h3⟩⟩
  split
  · exact ⟨np _ _ decodeParent_ne_panic, fun p h => absurd h (nprop _ _ (by simp) p)⟩
  split
  · exact ⟨np _ _ (fun b => by simp [decodeEnd, takeAll]), fun p h => absurd h (nprop _ _ (by simp) p)⟩
  · simp

theorem stepChunk_ok {slack} {st : LoopState} {raw : Raw} (h : LoopOk st) (hs : SafeFrame raw) :
    stepChunk slack st raw ≠ .panic ∧ ∀ st' f, stepChunk slack st raw = .ok (st', f) → LoopOk st' := by
  obtain ⟨h1, h2⟩ := decodeBody_ok (slack := slack) (g := st.groups) hs
  simp only [stepChunk]
  split
  · refine ⟨by simp, ?_⟩
    intro st' f e
    simp only [Res.ok.injEq, Prod.mk.injEq] at e
    obtain ⟨rfl, _⟩ := e
    exact h.push rfl (fun k i inst hk => .inl hk) (by simp)
  · contradiction
  · refine ⟨by simp, ?_⟩
    intro st' f e
    simp only [Res.ok.injEq, Prod.mk.injEq] at e
    obtain ⟨rfl, _⟩ := e
    exact h.push rfl (fun k i inst hk => .inl hk) (by simp)
  · rename_i body hb
    refine ⟨by simp, ?_⟩
    intro st' f e
    simp only [Res.ok.injEq, Prod.mk.injEq] at e
    obtain ⟨rfl, _⟩ := e
    refine h.push rfl ?_ ?_
    · intro k i inst hk
      cases body <;> try exact .inl hk
      rename_i c
      simp only [Map.get?_set] at hk
      split at hk
      · rename_i hkc
        simp only [Option.some.injEq, Prod.mk.injEq] at hk
        obtain ⟨rfl, rfl⟩ := hk
        exact .inr ⟨rfl, hkc.symm, rfl⟩
      · exact .inl hk
    · intro p hp
      simp only at hp
      subst hp
      exact h2 p hb

/-! ### the codec -/

theorem instLoop_ne_panic (c : InstChunk) (n : BitVec 32) : ∀ (refs : List Id) (i : Nat) (h : Heap Id),
    (c.isService = true → i + refs.length ≤ c.getService.length) →
    instLoop c n i refs h ≠ .panic := by
  intro refs
  induction refs with
  | nil => intro i h _; simp [instLoop]
  | cons ref refs ih =>
    intro i h hs
    simp only [instLoop]
    split
    · simp
    split
    · simp
    split
    · rename_i hsv
      have := hs hsv
      simp only [List.length_cons] at this
      split
      · rename_i hn
        rw [List.getElem?_eq_none_iff] at hn
        omega
      · exact ih _ _ (fun _ => by omega)
    · rename_i hsv
      exact ih _ _ (fun h => absurd h hsv)

theorem decodeValue_isSome {quat : Quat} {v : Val} (h1 : v.type ≠ .reference)
    (h2 : v.type ≠ .sharedString) : ∃ x : Value Id, decodeValue quat v = some x := by
  cases v <;> simp_all [decodeValue, Val.type]

theorem propValue_ne_panic {quat : Quat} {h : Heap Id} {shared t vs i} (ht : Typed t vs)
    (hi : i < vs.length) : ∃ x, propValue quat h shared (.plain t vs) i = .ok x := by
  have hv : vs[i]? = some vs[i] := List.getElem?_eq_getElem hi
  have hty := ht _ (List.getElem_mem hi)
  have key : t ≠ .reference → t ≠ .sharedString →
      ∃ x : Value Id, (match vs[i]? with
        | some v => match decodeValue quat v with
          | some x => .ok x
          | none => .panic
        | none => .panic : Res (Value Id)) = .ok x := by
    intro h1 h2
    obtain ⟨x, hx⟩ := decodeValue_isSome (quat := quat) (v := vs[i]) (by rw [hty]; exact h1)
      (by rw [hty]; exact h2)
    exact ⟨x, by simp only [hv, hx]⟩
  cases t <;> first
    | exact key (by simp) (by simp)
    | (simp only [propValue, hv]; exact ⟨_, rfl⟩)
    | skip
  simp only [propValue, hv]
  cases hx : vs[i] <;> rw [hx] at hty <;> simp [Val.type] at hty
  simp only
  split <;> exact ⟨_, rfl⟩

theorem propLoop_ne_panic {value : Nat → Res (Value Id)} {name : Bytes} {n : Nat}
    (hv : ∀ i, i < n → ∃ x, value i = .ok x) : ∀ (ids : List Id) (k : Nat) (h : Heap Id),
    k + ids.length ≤ n → (∀ id ∈ ids, id ∈ h.map Prod.fst) →
    propLoop value name k ids h ≠ .panic := by
  intro ids
  induction ids with
  | nil => intro k h _ _; simp [propLoop]
  | cons id ids ih =>
    intro k h hk hm
    simp only [List.length_cons] at hk
    obtain ⟨x, hx⟩ := hv k (by omega)
    obtain ⟨inst, hg⟩ := Option.isSome_iff_exists.1 (Map.get?_isSome.2 (hm id (by simp)))
    simp only [propLoop, hx, hg]
    refine ih _ _ (by omega) ?_
    intro id' hid'
    rw [Map.fst_set_of_mem hg]
    exact hm id' (by simp [hid'])

theorem parentLoop_ne_panic (ic : Nat) (n : BitVec 32) : ∀ (ps : List (Id × Id)) (i : Nat)
    (st : DecState), (parentLoop ic n i ps st).2 ≠ .panic := by
  intro ps
  induction ps with
  | nil => intro i st; simp [parentLoop]
  | cons p ps ih =>
    intro i st
    obtain ⟨c, p⟩ := p
    simp only [parentLoop]
    (repeat' split) <;> first | exact ih _ _ | simp

/-- The invariant of the codec loop before the chunk at position `ic`. -/
def CodecOk (f : FormatModel) (ic : Nat) (st : DecState) : Prop :=
  (st.heap.map Prod.fst).Nodup ∧
  ∀ (i : Nat) (c : Chunk) (inst : InstChunk), i < ic → f.chunks[i]? = some c → c.body = .inst inst →
    (∃ g, f.groupLookup.get? inst.classID = some (i, g)) ∧ ∀ id ∈ inst.ids, id ∈ st.heap.map Prod.fst

theorem codecStep_ne_panic {quat : Quat} {f : FormatModel} {st0 : LoopState} (hl : LoopOk st0)
    (hf1 : f.chunks = st0.chunks) (hf2 : f.groupLookup = st0.groups) {ic : Nat} {st : DecState}
    {c : Chunk} (hc : f.chunks[ic]? = some c) (hi : CodecOk f ic st) :
    (codecStep quat f ic st c.body).2 ≠ .panic := by
  cases hb : c.body with
  | inst ch =>
    simp only [codecStep]
    split
    · simp
    split
    · simp
    rename_i hsv
    have := instLoop_ne_panic ch f.instanceCount ch.ids 0 st.heap (by
      intro hs; simp [hs] at hsv; omega)
    split
    · contradiction
    · simp
    · split <;> simp
  | prop p =>
    simp only [codecStep]
    split
    · simp
    split
    · simp
    rename_i i inst hg
    split
    · simp
    rename_i a ha
    split
    · simp
    rename_i hlen
    rw [hf1] at hc
    obtain ⟨⟨i', ci, inst', h1, h2, h3, h4⟩, h5⟩ := hl.props ic c p hc hb
    obtain ⟨t, vs, rfl, hty⟩ := h5 a ha
    obtain ⟨⟨g, hg'⟩, hids⟩ := hi.2 i' ci inst' h1 (by rw [hf1]; exact h2) h3
    rw [h4] at hg'
    rw [hg] at hg'
    simp only [Option.some.injEq, Prod.mk.injEq] at hg'
    obtain ⟨rfl, rfl⟩ := hg'
    rw [hf2] at hg
    obtain ⟨_, c2, h6, h7⟩ := hl.groups _ _ _ hg
    rw [h2] at h6
    simp only [Option.some.injEq] at h6
    subst h6
    rw [h3] at h7
    simp only [Body.inst.injEq] at h7
    subst h7
    simp only [Arr.len, ne_eq, Decidable.not_not] at hlen
    have := propLoop_ne_panic (value := propValue quat st.heap st.shared (.plain t vs))
      (name := p.name) (n := vs.length) (fun k hk => propValue_ne_panic hty hk) inst'.ids 0 st.heap
      (by omega) hids
    split
    · contradiction
    · simp
    · simp
  | parent ch =>
    simp only [codecStep]
    split
    · simp
    split
    · simp
    exact parentLoop_ne_panic _ _ _ _ _
  | metadata _ => simp [codecStep]
  | shared _ => simp [codecStep]
  | end_ _ => simp [codecStep]
  | unknown _ _ => simp [codecStep]
  | errored _ _ => simp [codecStep]

theorem codecLoop_ne_panic {quat : Quat} {f : FormatModel} {st0 : LoopState} (hl : LoopOk st0)
    (hf1 : f.chunks = st0.chunks) (hf2 : f.groupLookup = st0.groups) : ∀ (cs : List Chunk) (ic : Nat)
    (st : DecState), f.chunks.drop ic = cs → CodecOk f ic st →
    (codecLoop quat f ic cs st).2 ≠ .panic := by
  intro cs
  induction cs with
  | nil => intro ic st _ _; simp [codecLoop]
  | cons c cs ih =>
    intro ic st hd hi
    have hc : f.chunks[ic]? = some c := by
      rw [← List.head?_drop, hd]; rfl
    have hnp := codecStep_ne_panic (quat := quat) hl hf1 hf2 hc hi
    simp only [codecLoop]
    rcases hs : codecStep quat f ic st c.body with ⟨st1, fl⟩
    rw [hs] at hnp
    cases fl <;> simp only at hnp ⊢ <;> try simp
    · obtain ⟨g1, g2, g3, g4⟩ := codecStep_ok hs hi.1
      refine ih _ _ ?_ ⟨g3, ?_⟩
      · rw [← List.drop_drop, hd]; rfl
      · intro i c' inst hlt hci hbody
        by_cases e : i = ic
        · subst e
          rw [hc] at hci
          cases hci
          rw [hbody] at g1 g2
          refine ⟨g1.2.2.2, ?_⟩
          intro id hid
          rw [g2]
          simp [Body.ids, hid]
        · obtain ⟨h1, h2⟩ := hi.2 i c' inst (by omega) hci hbody
          refine ⟨h1, ?_⟩
          intro id hid
          rw [g2]
          exact List.mem_append_left _ (h2 id hid)
    · exact absurd rfl hnp

theorem codecDecode_ne_panic {quat : Quat} {f : FormatModel} {st0 : LoopState} (hl : LoopOk st0)
    (hf1 : f.chunks = st0.chunks) (hf2 : f.groupLookup = st0.groups) :
    (codecDecode quat f).2 ≠ .panic := by
  have := codecLoop_ne_panic (quat := quat) hl hf1 hf2 f.chunks 0 {} rfl ⟨by simp, by simp⟩
  simp only [codecDecode]
  rcases hs : codecLoop quat f 0 f.chunks {} with ⟨st, fl⟩
  rw [hs] at this
  cases fl <;> simp_all

/-! ### the file -/

/-- `Reaches lz b b'`: reading frames from `b`, none of them an END chunk, leads to `b'`. -/
inductive Reaches (lz : LZ4) : Bytes → Bytes → Prop
  | refl {b} : Reaches lz b b
  | step {b raw b' b''} : rawDecode lz b = .ok (raw, b') → raw.sig ≠ sigEND → Reaches lz b' b'' →
      Reaches lz b b''

theorem decodeChunks_ne_panic {lz : LZ4} (hlz : lz.Lossless) {slack} : ∀ (fuel : Nat) (st : LoopState)
    (b : Bytes), b.length < fuel → LoopOk st →
    (∀ b', Reaches lz b b' → rawDecode lz b' ≠ .panic ∧
      ∀ raw r, rawDecode lz b' = .ok (raw, r) → SafeFrame raw) →
    (decodeChunks lz slack fuel st b).2 ≠ .panic ∧
    ∀ st' r, decodeChunks lz slack fuel st b = (st', .ok r) → LoopOk st' := by
  intro fuel
  induction fuel with
  | zero => intro st b h; omega
  | succ fuel ih =>
    intro st b hlen hl hr
    obtain ⟨h1, h2⟩ := hr b .refl
    simp only [decodeChunks]
    rcases hd : rawDecode lz b with ⟨raw, rest⟩ | e | _
    · obtain ⟨h3, h4⟩ := stepChunk_ok (slack := slack) hl (h2 raw rest hd)
      have hfl := (stepChunk_flag (slack := slack) (st := st) (raw := raw)).1
      rcases hs : stepChunk slack st raw with ⟨st1, _ | _⟩ | e | _ <;> simp only [hs]
      · have := hfl _ _ hs
        exact ih st1 rest (by have := (rawDecode_ok hlz hd).2; omega) (h4 _ _ hs)
          (fun b' hb' => hr b' (.step hd (by simpa using this) hb'))
      · simp only [Prod.mk.injEq]
        refine ⟨by simp, ?_⟩
        rintro st' r ⟨rfl, _⟩
        exact h4 _ _ hs
      · simp
      · exact absurd hs h3
    · simp
    · exact absurd hd h1

/-- The compressed-length field of the frame at the start of `b`: bytes 4 to 7, little-endian. -/
def compLenField (b : Bytes) : Option Nat :=
  match b with
  | _ :: _ :: _ :: _ :: c0 :: c1 :: c2 :: c3 :: _ => some (mk32 c0 c1 c2 c3).toNat
  | _ => none

theorem rawDecode_ne_panic {lz : LZ4} (hlz : lz.Lossless) {b : Bytes}
    (h : ∀ n, compLenField b = some n → n < 2 ^ 32 - 4) : rawDecode lz b ≠ .panic := by
  simp only [rawDecode]
  refine Res.bind_ne_panic (num32_ne_panic _) ?_
  rintro ⟨sig, r1⟩ h1
  refine Res.bind_ne_panic (num32_ne_panic _) ?_
  rintro ⟨cl, r2⟩ h2
  refine Res.bind_ne_panic (num32_ne_panic _) ?_
  rintro ⟨dl, r3⟩ h3
  refine Res.bind_ne_panic (num32_ne_panic _) ?_
  rintro ⟨res, r4⟩ h4
  dsimp only
  split
  · exact Res.bind_ne_panic (takeN_ne_panic _ _) fun _ _ => by simp
  split
  · rename_i hz hov
    exfalso
    have e1 := num32_ok h1
    have e2 := num32_ok h2
    have := h cl.toNat (by
      rw [e1, e2]
      simp only [le32, List.cons_append, List.nil_append, compLenField, Option.some.injEq]
      congr 1
      exact mk32_split cl)
    rw [BitVec.toNat_add] at hov
    simp at hov
    omega
  · exact Res.bind_ne_panic (takeN_ne_panic _ _) fun _ _ =>
      Res.bind_ne_panic (liftRes_ne_panic (hlz.dec_ne_panic _ _) _) fun _ _ => by simp

end Rbxl

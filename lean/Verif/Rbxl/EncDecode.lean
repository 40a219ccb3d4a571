import Verif.Rbxl.EncProps
/-!
# Decoding the property chunks of an encoded tree
-/
namespace Rbxl
open Go Rbxfile Spec

variable {ρ : Type}

/-! ### one value -/

theorem propValue_plain (quat : Quat) (h : Heap Id) (shared : List (Bytes × Bytes)) {t : TypeID}
    (h1 : t ≠ .reference) (h2 : t ≠ .sharedString) (vs : List Val) (i : Nat) {v : Val}
    {x : Value Id} (hv : vs[i]? = some v) (hx : decodeValue quat v = some x) :
    propValue quat h shared (.plain t vs) i = .ok x := by
  cases t <;> first
    | exact absurd rfl h1
    | exact absurd rfl h2
    | simp only [propValue, hv, hx]

/-- The context in which the value of a property is decoded: `φ` maps instances to those decoded,
`shared` are the decoded shared strings. -/
structure Ctx (hash : Bytes → Bytes) (used : Bytes → Prop) (ref : Option ρ → BitVec 32) (sh : Shared)
    (φ : ρ → Option Id) (d : Missing Id) (h : Heap Id) (shared : List (Bytes × Bytes)) : Prop where
  ref : ∀ p, lookupRef h (ref p) = p.bind φ
  first : lookupRef h 0 = d.first
  zero : sh ≠ [] → ∃ x, shared[0]? = some (x, d.shared)
  shared : ∀ s, used s → ∀ (k : Nat) (e : Bytes × Bytes), sh[k]? = some e → e.1 = hash s →
    ∃ x, shared[(BitVec.ofNat 32 k).toNat]? = some (x, s)

theorem lookupRef_congr {h h' : Heap Id} (hk : h'.map Prod.fst = h.map Prod.fst) (q : Id) :
    lookupRef h' q = lookupRef h q := by
  have : (h'.get? q).isSome = (h.get? q).isSome := by
    rw [Bool.eq_iff_iff, Map.get?_isSome, Map.get?_isSome, hk]
  simp only [lookupRef, this]

theorem Ctx.keys {hash : Bytes → Bytes} {used : Bytes → Prop} {ref : Option ρ → BitVec 32}
    {sh : Shared} {φ : ρ → Option Id} {d : Missing Id} {h h' : Heap Id} {shared : List (Bytes × Bytes)}
    (c : Ctx hash used ref sh φ d h shared) (hk : h'.map Prod.fst = h.map Prod.fst) :
    Ctx hash used ref sh φ d h' shared :=
  ⟨fun p => by rw [lookupRef_congr hk, c.ref], by rw [lookupRef_congr hk, c.first], c.zero, c.shared⟩

theorem plainValue_ok (quat : Quat) {hash : Bytes → Bytes} {used : Bytes → Prop}
    {ref : Option ρ → BitVec 32} {sh : Shared} {φ : ρ → Option Id} {d : Missing Id} {h : Heap Id}
    {shared : List (Bytes × Bytes)} (c : Ctx hash used ref sh φ d h shared) {place : Bool} {t : TypeID}
    {vals : List (Value ρ)} (hp : PlanSpec place vals (.plain t)) {own : Option (Value ρ)}
    (hown : ∀ v, own = some v → v ∈ vals) (hu : ∀ s, own = some (.sharedString s) → used s)
    (hsh : ∀ s, .sharedString s ∈ vals → sh ≠ [])
    {bs : List Val} {j : Nat} {b : Val} (hb : bs[j]? = some b) (he : Enc hash ref t sh own b) :
    ∃ w, propValue quat h shared (.plain t (bs.map Val.canon)) j = .ok w ∧
      Expected φ d vals own w := by
  obtain ⟨he1, he2⟩ := he
  obtain ⟨hp1, hp2, hp3⟩ := hp
  have hbc : (bs.map Val.canon)[j]? = some b.canon := by simp [hb]
  cases own with
  | none =>
    simp only at he2
    by_cases ht : t = .reference
    · subst ht
      cases he2
      refine ⟨.reference d.first, by simp only [propValue, hbc, Val.canon, Val.refNum, c.first], by simp, ?_⟩
      intro _ v hv
      have := hp3 v hv
      cases v <;> simp_all [Value.type, fromValueType]
    · by_cases ht2 : t = .sharedString
      · subst ht2
        cases he2
        by_cases hne : ∃ s, .sharedString s ∈ vals
        · obtain ⟨s, hs⟩ := hne
          obtain ⟨x, hx⟩ := c.zero (hsh s hs)
          have hx : shared[BitVec.toNat 0#32]? = some (x, d.shared) := hx
          refine ⟨.sharedString d.shared, by
            simp only [propValue, hbc, Val.canon]
            rw [show shared[(0 : BitVec 32).toNat]? = some (x, d.shared) from hx], by simp, ?_⟩
          intro _ v hv
          have := hp3 v hv
          cases v <;> simp_all [Value.type, fromValueType]
        · have hs : ∃ w, propValue quat h shared (.plain .sharedString (bs.map Val.canon)) j = .ok w := by
            simp only [propValue, hbc, Val.canon]
            cases shared[BitVec.toNat 0#32]? <;> exact ⟨_, rfl⟩
          obtain ⟨w, hw⟩ := hs
          refine ⟨w, hw, by simp, ?_⟩
          intro _ v hv
          exfalso
          have := hp3 v hv
          cases v <;> simp [Value.type, fromValueType] at this
          exact hne ⟨_, hv⟩
      · cases vals with
        | nil =>
          cases t <;> first
            | exact absurd rfl ht
            | exact absurd rfl ht2
            | exact absurd rfl hp1
            | (cases he2
               exact ⟨_, propValue_plain quat h shared ht ht2 _ _ hbc rfl, by simp, by simp⟩)
        | cons v0 vals =>
          have h0 := hp3 v0 (by simp)
          have := newValue_decode (σ := Id) quat h0 ht ht2 he2
          refine ⟨_, propValue_plain quat h shared ht ht2 _ _ hbc this, by simp, ?_⟩
          intro _ v hv
          have hv := hp3 v hv
          have e : binType v0.type = binType v.type := by rw [binType_eq_iff, h0, hv]
          cases v <;> first
            | (simp only [e]; done)
            | exact absurd (by simpa [Value.type, fromValueType] using hv.symm) ht
            | exact absurd (by simpa [Value.type, fromValueType] using hv.symm) ht2
            | (simp only [Value.type, fromValueType, Option.some.injEq] at hv
               exact absurd hv.symm hp1)
  | some v =>
    have htv := hp3 v (hown v rfl)
    by_cases hr : ∃ p, v = .reference p
    · obtain ⟨p, rfl⟩ := hr
      simp only at he2
      subst he2
      simp only [Val.type] at he1
      subst he1
      refine ⟨_, by simp only [propValue, hbc, Val.canon, Val.refNum]; rfl, ?_, by simp⟩
      intro v hv
      cases hv
      simp only [Kept, c.ref]
    · by_cases hs : ∃ s, v = .sharedString s
      · obtain ⟨s, rfl⟩ := hs
        simp only at he2
        obtain ⟨k, e, rfl, g1, g2⟩ := he2
        simp only [Val.type] at he1
        subst he1
        obtain ⟨x, hx⟩ := c.shared s (hu s rfl) k e g1 g2
        refine ⟨.sharedString s, by simp only [propValue, hbc, Val.canon, hx], ?_, by simp⟩
        intro v hv
        cases hv
        rfl
      · have he3 : encodeValue v = some b := by
          cases v <;> first
            | exact he2
            | exact absurd ⟨_, rfl⟩ hr
            | exact absurd ⟨_, rfl⟩ hs
        obtain ⟨w, hw1, hw2, _⟩ := decode_encode (σ := Id) quat φ he3
        have ht1 : t ≠ .reference := by
          rintro rfl
          cases v <;> simp [Value.type, fromValueType] at htv
          exact hr ⟨_, rfl⟩
        have ht2 : t ≠ .sharedString := by
          rintro rfl
          cases v <;> simp [Value.type, fromValueType] at htv
          exact hs ⟨_, rfl⟩
        refine ⟨w, propValue_plain quat h shared ht1 ht2 _ _ hbc hw1, ?_, by simp⟩
        intro v' hv'
        cases hv'
        exact hw2

theorem optValue_ok (quat : Quat) {φ : ρ → Option Id} {d : Missing Id} {h : Heap Id}
    {shared : List (Bytes × Bytes)} {place : Bool} {t : TypeID}
    {vals : List (Value ρ)} (hp : PlanSpec place vals (.opt t)) {own : Option (Value ρ)}
    (hown : ∀ v, own = some v → v ∈ vals)
    (hsup : ∀ v, own = some v → Supported v)
    {bs : List (Val × Bool)} {j : Nat} {b : Val × Bool} (hb : bs[j]? = some b)
    (he : EncOpt t own b) :
    ∃ w, propValue quat h shared (.optional (.plain t ((bs.map Prod.fst).map Val.canon))
      (bs.map Prod.snd)) j = .ok w ∧ Expected φ d vals own w := by
  obtain ⟨he1, -, he2⟩ := he
  have hb1 : ((bs.map Prod.fst).map Val.canon)[j]? = some b.1.canon := by simp [hb]
  have hb2 : (bs.map Prod.snd)[j]? = some b.2 := by simp [hb]
  have absent : b.2 = false → propValue quat h shared
      (.optional (.plain t ((bs.map Prod.fst).map Val.canon)) (bs.map Prod.snd)) j =
      .ok (.optional t.valueType none) := by
    intro e
    simp only [propValue, hb2, e, Arr.type]
  cases own with
  | none =>
    refine ⟨_, absent he2, by simp, ?_⟩
    intro _ v hv
    obtain ⟨typ, o, rfl, e⟩ := hp v hv
    rw [valueType_of e]
  | some v =>
    obtain ⟨typ, o, rfl, e⟩ := hp v (hown v rfl)
    cases o with
    | none =>
      refine ⟨_, absent he2, ?_, by simp⟩
      intro v hv
      cases hv
      rw [valueType_of e]
      simp [Kept]
    | some v =>
      obtain ⟨hs1, hs2⟩ := hsup _ rfl
      have hs2 := hs2 v rfl
      rcases he2 with ⟨g1, g2⟩ | ⟨g1, g2⟩
      · obtain ⟨w, hw1, hw2, hw3⟩ := decode_encode (σ := Id) quat φ g2
        refine ⟨.optional w.type (some w), ?_, ?_, by simp⟩
        · simp only [propValue, hb2, g1, Arr.get, hb1, Res.ok_bind, hw1]
        · intro v' hv'
          cases hv'
          refine ⟨w, ?_, hw2⟩
          rw [hw3, hs2]
      · exfalso
        have hnp : ¬ Value.plainValue v := by
          intro hpl
          obtain ⟨b', h1, _⟩ := encodeValue_some v hpl
          rw [g2] at h1; cases h1
        cases v <;> simp only [Value.plainValue, not_true_eq_false, not_false_eq_true] at hnp <;>
          simp only [Value.type] at hs2 <;> subst hs2
        · simp [interleavedTy] at hs1
        · simp [interleavedTy] at hs1
        · simp only [fromValueType, Option.some.injEq] at e
          subst e
          cases hb0 : b.1 <;> rw [hb0] at he1 <;> simp [Val.type] at he1

/-! ### the loop over the instances -/

theorem propLoop_good (value : Nat → Res (Value Id)) (name : Bytes) : ∀ (ids : List Id) (k : Nat)
    (h : Heap Id), ids.Nodup → (∀ q ∈ ids, (h.get? q).isSome) →
    (∀ j, j < ids.length → ∃ w, value (k + j) = .ok w) →
    ∃ h', propLoop value name k ids h = .ok h' ∧ h'.map Prod.fst = h.map Prod.fst ∧
      (∀ q, q ∉ ids → h'.get? q = h.get? q) ∧
      ∀ (j : Nat) (q : Id) (inst : Inst Id) (w : Value Id), ids[j]? = some q →
        h.get? q = some inst → value (k + j) = .ok w →
        h'.get? q = some { inst with properties := inst.properties.set name w } := by
  intro ids
  induction ids with
  | nil => intro k h _ _ _; exact ⟨h, rfl, rfl, fun _ _ => rfl, by simp⟩
  | cons q ids ih =>
    intro k h hnd hin hv
    obtain ⟨w, hw⟩ := hv 0 (by simp)
    rw [Nat.add_zero] at hw
    obtain ⟨hq, hnd⟩ := List.nodup_cons.1 hnd
    cases hg : h.get? q with
    | none => have := hin q (by simp); rw [hg] at this; cases this
    | some inst =>
      have hkeys : (h.set q { inst with properties := inst.properties.set name w }).map Prod.fst =
          h.map Prod.fst := by
        rw [Map.map_fst_set, if_pos]
        exact Map.get?_isSome.1 (by rw [hg]; rfl)
      obtain ⟨h', g1, g2, g3, g4⟩ := ih (k + 1)
        (h.set q { inst with properties := inst.properties.set name w }) hnd (by
          intro x hx
          have := hin x (List.mem_cons_of_mem _ hx)
          rw [Map.get?_isSome] at this ⊢
          rw [hkeys]; exact this) (by
          intro j hj
          obtain ⟨w, hw⟩ := hv (j + 1) (by simp; omega)
          exact ⟨w, by rw [← hw]; congr 1; omega⟩)
      refine ⟨h', by simp only [propLoop, hw, hg, g1], by rw [g2, hkeys], ?_, ?_⟩
      · intro x hx
        simp only [List.mem_cons, not_or] at hx
        rw [g3 x hx.2, Map.get?_set_ne _ _ hx.1]
      · intro j x inst' w' hj hi hw'
        cases j with
        | zero =>
          simp only [List.getElem?_cons_zero, Option.some.injEq] at hj
          subst hj
          rw [Nat.add_zero, hw] at hw'
          cases hw'
          rw [hg] at hi; cases hi
          rw [g3 q hq, Map.get?_set_self]
        | succ j =>
          simp only [List.getElem?_cons_succ] at hj
          have hne : x ≠ q := by
            rintro rfl; exact hq (List.mem_iff_getElem?.2 ⟨j, hj⟩)
          refine g4 j x inst' w' hj (by rw [Map.get?_set_ne _ _ hne, hi]) ?_
          rw [← hw']; congr 1; omega

theorem forall₂_get {α β : Type} {R : α → β → Prop} : ∀ {xs : List α} {ys : List β},
    List.Forall₂ R xs ys → ∀ (j : Nat) (x : α), xs[j]? = some x → ∃ y, ys[j]? = some y ∧ R x y := by
  intro xs ys h
  induction h with
  | nil => intro j x hx; simp at hx
  | cons h1 _ ih =>
    intro j x hx
    cases j with
    | zero => simp only [List.getElem?_cons_zero, Option.some.injEq] at hx; subst hx; exact ⟨_, rfl, h1⟩
    | succ j => simpa using ih j x (by simpa using hx)

theorem forall₂_mem {α β : Type} {R : α → β → Prop} {xs : List α} {ys : List β}
    (h : List.Forall₂ R xs ys) : ∀ y ∈ ys, ∃ x ∈ xs, R x y := by
  induction h with
  | nil => intro y hy; cases hy
  | cons h1 _ ih =>
    intro y hy
    rcases List.mem_cons.1 hy with rfl | hy
    · exact ⟨_, by simp, h1⟩
    · obtain ⟨x, hx, h⟩ := ih y hy
      exact ⟨x, List.mem_cons_of_mem _ hx, h⟩

/-! ### one chunk -/

/-- What a property chunk does to the heap. -/
def Sets (φ : ρ → Option Id) (d : Missing Id) (insts : List (Inst ρ)) (ids : List Id) (names : List Bytes)
    (h h' : Heap Id) : Prop :=
  h'.map Prod.fst = h.map Prod.fst ∧ (∀ q, q ∉ ids → h'.get? q = h.get? q) ∧
  ∀ (j : Nat) (q : Id) (i : Inst ρ) (inst : Inst Id), ids[j]? = some q → insts[j]? = some i →
    h.get? q = some inst →
    ∃ P : Map Bytes (Value Id), h'.get? q = some { inst with properties := P } ∧
      (∀ n, n ∉ names → P.get? n = inst.properties.get? n) ∧
      ∀ n ∈ names, ∃ w, P.get? n = some w ∧
        Expected φ d (valuesOf insts n) (i.properties.get? n) w

theorem propStep (quat : Quat) (f : FormatModel) (ic : Nat) (st : DecState) {hash : Bytes → Bytes}
    {used : Bytes → Prop} {ref : Option ρ → BitVec 32} {sh : Shared} {φ : ρ → Option Id} {d : Missing Id}
    (ctx : Ctx hash used ref sh φ d st.heap st.shared) {place : Bool} {insts : List (Inst ρ)}
    {p : Bytes × Kind} {c : PropChunk} {classID : BitVec 32}
    (hc : ChunkOk hash ref sh classID insts p c) (hp : PlanSpec place (valuesOf insts p.1) p.2)
    (hcls : outOfBounds classID f.classCount = false) {g : Nat} {ch : InstChunk}
    (hg : f.groupLookup.get? classID = some (g, ch)) (hlen : ch.ids.length = insts.length)
    (hnd : ch.ids.Nodup) (hin : ∀ q ∈ ch.ids, (st.heap.get? q).isSome)
    (hsup : ∀ i ∈ insts, ∀ n v, i.properties.get? n = some v → Supported v)
    (hu : ∀ i ∈ insts, ∀ n s, i.properties.get? n = some (.sharedString s) → used s) :
    ∃ h', codecStep quat f ic st (Body.prop c).canon = ({ st with heap := h' }, .next) ∧
      Sets φ d insts ch.ids [p.1] st.heap h' := by
  obtain ⟨c1, c2, c3⟩ := hc
  have key : ∃ a : Arr, c.props = some a ∧ a.len = insts.length ∧ a.canon.len = insts.length ∧
      ∀ (j : Nat) (i : Inst ρ), insts[j]? = some i →
        ∃ w, propValue quat st.heap st.shared a.canon j = .ok w ∧
          Expected φ d (valuesOf insts p.1) (i.properties.get? p.1) w := by
    have hown : ∀ i ∈ insts, ∀ v, i.properties.get? p.1 = some v → v ∈ valuesOf insts p.1 :=
      fun i hi v hv => List.mem_filterMap.2 ⟨i, hi, hv⟩
    obtain ⟨n, k⟩ := p
    cases k with
    | plain t =>
      obtain ⟨vs, e1, e2⟩ := c3
      refine ⟨_, e1, by simp [Arr.len, e2.length_eq], by simp [Arr.canon, Arr.len, e2.length_eq], ?_⟩
      intro j i hi
      obtain ⟨b, hb, he⟩ := forall₂_get e2 j i hi
      have him := List.mem_iff_getElem?.2 ⟨j, hi⟩
      refine plainValue_ok quat ctx hp (hown i him) (hu i him n) (fun s hs => ?_) hb he
      obtain ⟨i', hi', hs'⟩ := List.mem_filterMap.1 hs
      obtain ⟨j', hj'⟩ := List.mem_iff_getElem?.1 hi'
      obtain ⟨b', -, he'⟩ := forall₂_get e2 j' i' hj'
      simp only [Enc, hs'] at he'
      obtain ⟨-, k, e, -, hk, -⟩ := he'
      intro h0
      rw [h0] at hk
      cases hk
    | opt t =>
      obtain ⟨vs, e1, e2⟩ := c3
      refine ⟨_, e1, by simp [Arr.len, e2.length_eq], by simp [Arr.canon, Arr.len, e2.length_eq], ?_⟩
      intro j i hi
      obtain ⟨b, hb, he⟩ := forall₂_get e2 j i hi
      have him := List.mem_iff_getElem?.2 ⟨j, hi⟩
      exact optValue_ok quat hp (hown i him) (hsup i him n) hb he
  obtain ⟨a, a1, a2, a3, a4⟩ := key
  obtain ⟨h', g1, g2, g3, g4⟩ := propLoop_good (propValue quat st.heap st.shared a.canon) p.1
    ch.ids 0 st.heap hnd hin (by
      intro j hj
      rw [hlen] at hj
      obtain ⟨w, hw, _⟩ := a4 j insts[j] (List.getElem?_eq_getElem hj)
      exact ⟨w, by simpa using hw⟩)
  refine ⟨h', ?_, g2, g3, ?_⟩
  · simp only [Body.canon, codecStep, c1, hcls, Bool.false_eq_true, if_false, hg, a1, Option.map_some,
      a3, hlen, ne_eq, not_true_eq_false, c2, g1]
  · intro j q i inst hj hi hq
    obtain ⟨w, hw, hw2⟩ := a4 j i hi
    refine ⟨inst.properties.set p.1 w, g4 j q inst w hj hq (by simpa using hw), ?_, ?_⟩
    · intro n hn
      simp only [List.mem_singleton] at hn
      rw [Map.get?_set_ne _ _ hn]
    · intro n hn
      simp only [List.mem_singleton] at hn
      subst hn
      exact ⟨w, by simp, hw2⟩

/-- The property chunks of a class. -/
theorem propsOfClass (quat : Quat) (f : FormatModel) {hash : Bytes → Bytes}
    {used : Bytes → Prop} {ref : Option ρ → BitVec 32} {sh : Shared} {φ : ρ → Option Id} {d : Missing Id}
    {place : Bool} {insts : List (Inst ρ)} {classID : BitVec 32} (u : Bool)
    (hcls : outOfBounds classID f.classCount = false) {g : Nat} {ch : InstChunk}
    (hg : f.groupLookup.get? classID = some (g, ch)) (hlen : ch.ids.length = insts.length)
    (hnd : ch.ids.Nodup)
    (hsup : ∀ i ∈ insts, ∀ n v, i.properties.get? n = some v → Supported v)
    (hu : ∀ i ∈ insts, ∀ n s, i.properties.get? n = some (.sharedString s) → used s) :
    ∀ {plan : List (Bytes × Kind)} {cs : List PropChunk},
    List.Forall₂ (ChunkOk hash ref sh classID insts) plan cs →
    (∀ x ∈ plan, PlanSpec place (valuesOf insts x.1) x.2) →
    ∀ (ic : Nat) (st : DecState), Ctx hash used ref sh φ d st.heap st.shared →
    (∀ q ∈ ch.ids, (st.heap.get? q).isSome) →
    ∃ h', codecLoop quat f ic (cs.map fun c => Chunk.back u ⟨.prop c, true⟩) st =
        ({ st with heap := h' }, .next) ∧
      Sets φ d insts ch.ids (plan.map Prod.fst) st.heap h' := by
  intro plan cs hall
  induction hall with
  | nil =>
    intro _ ic st _ _
    refine ⟨st.heap, rfl, rfl, fun _ _ => rfl, ?_⟩
    intro j q i inst _ _ hq
    exact ⟨inst.properties, hq, fun _ _ => rfl, by simp⟩
  | @cons p c plan cs hc _ ih =>
    intro hp ic st ctx hin
    obtain ⟨h1, g1, g2, g3, g4⟩ := propStep quat f ic st ctx hc (hp p (by simp)) hcls hg hlen hnd hin
      hsup hu
    obtain ⟨h2, k1, k2, k3, k4⟩ := ih (fun x hx => hp x (List.mem_cons_of_mem _ hx)) (ic + 1)
      { st with heap := h1 } (ctx.keys g2) (by
        intro q hq
        have := hin q hq
        rw [Map.get?_isSome] at this ⊢
        show q ∈ h1.map Prod.fst
        rw [g2]; exact this)
    refine ⟨h2, ?_, k2.trans g2, fun q hq => (k3 q hq).trans (g3 q hq), ?_⟩
    · have g1' : codecStep quat f ic st (Chunk.back u ⟨.prop c, true⟩).body =
          ({ st with heap := h1 }, .next) := g1
      simp only [List.map_cons, codecLoop, g1', k1]
    · intro j q i inst hj hi hq
      obtain ⟨P, p1, p2, p3⟩ := g4 j q i inst hj hi hq
      obtain ⟨P', q1, q2, q3⟩ := k4 j q i _ hj hi p1
      refine ⟨P', q1, ?_, ?_⟩
      · intro n hn
        simp only [List.map_cons, List.mem_cons, not_or] at hn
        rw [q2 n hn.2, p2 n (by simpa using hn.1)]
      · intro n hn
        by_cases hm : n ∈ plan.map Prod.fst
        · exact q3 n hm
        · simp only [List.map_cons, List.mem_cons, hm, or_false] at hn
          obtain ⟨w, w1, w2⟩ := p3 n (by simpa using hn)
          exact ⟨w, by rw [q2 n hm, w1], w2⟩

end Rbxl

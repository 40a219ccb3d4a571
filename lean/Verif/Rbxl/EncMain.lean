import Verif.Rbxl.EncSizes
import Verif.Props.Framing
/-!
# Decoding an encoded tree
-/
namespace Rbxl
open Go Rbxfile Spec

variable {ρ : Type} [DecidableEq ρ]

theorem classInsts_eq (insts : List (Inst ρ)) (cls : Bytes) :
    classInsts insts cls = insts.filter fun i => decide (i.className = cls) := by
  have : ∀ (insts : List (Inst ρ)) (k : Nat), ((insts.zipIdx k).filter
      fun x => decide (x.1.className = cls)).map Prod.fst =
      insts.filter fun i => decide (i.className = cls) := by
    intro insts
    induction insts with
    | nil => intro k; rfl
    | cons i is ih =>
      intro k
      simp only [List.zipIdx_cons, List.filter_cons]
      split <;> simp [ih]
  exact this insts 0

/-- The chunk of a class. -/
def clsChunk (place : Bool) (insts : List (Inst ρ)) (c : Bytes × Nat) : InstChunk :=
  { chunkOf place c.1 (members insts.zipIdx c.1) with classID := BitVec.ofNat 32 c.2 }

omit [DecidableEq ρ] in
theorem pos_of_class {insts : List (Inst ρ)} {q : Id} {i : Inst ρ} (h : insts[q.toNat]? = some i) :
    ∃ j : Nat, ((members insts.zipIdx i.className).map fun x => BitVec.ofNat 32 x.2)[j]? = some q ∧
      (classInsts insts i.className)[j]? = some i := by
  have hm : (i, q.toNat) ∈ members insts.zipIdx i.className := mem_members.2 ⟨h, rfl⟩
  obtain ⟨j, hj⟩ := List.mem_iff_getElem?.1 hm
  exact ⟨j, by simp [hj], by simp [classInsts, hj]⟩

omit [DecidableEq ρ] in
theorem not_mem_class {insts : List (Inst ρ)} (hn : insts.length < 2 ^ 31) {q : Id} {i : Inst ρ}
    {cls : Bytes} (h : insts[q.toNat]? = some i) (hc : i.className ≠ cls) :
    q ∉ (members insts.zipIdx cls).map fun x => BitVec.ofNat 32 x.2 := by
  intro hq
  obtain ⟨x, hx, rfl⟩ := List.mem_map.1 hq
  obtain ⟨h1, h2⟩ := mem_members.1 hx
  have hlt := (List.getElem?_eq_some_iff.1 h1).1
  rw [toNat_ofNat_lt (by omega), h1] at h
  cases h
  exact hc h2

omit [DecidableEq ρ] in
/-- The PROP chunks of an encoded tree. -/
theorem propPhase (quat : Quat) (f : FormatModel) {hash : Bytes → Bytes} {used : Bytes → Prop}
    {ref : Option ρ → BitVec 32} {sh : Shared} {φ : ρ → Option Id} {d : Missing Id} (place : Bool)
    (insts : List (Inst ρ)) (hn : insts.length < 2 ^ 31)
    (off N : Nat) (hN : N < 2 ^ 31) (hcc : f.classCount = BitVec.ofNat 32 N) (u : Bool)
    (hsup : ∀ i ∈ insts, ∀ n v, i.properties.get? n = some v → Supported v)
    (hu : ∀ i ∈ insts, ∀ n s, i.properties.get? n = some (.sharedString s) → used s) :
    ∀ (names : List Bytes) (k : Nat) (cs : List PropChunk),
    k + names.length ≤ N → names.Nodup →
    (∀ c ∈ names.zipIdx k, f.groupLookup.get? (BitVec.ofNat 32 c.2) =
      some (off + c.2, (clsChunk place insts c).canon)) →
    PropsOk hash ref place insts sh k names cs →
    ∀ (ic : Nat) (st : DecState), Ctx hash used ref sh φ d st.heap st.shared →
    (∀ (q : Id) (i : Inst ρ), insts[q.toNat]? = some i → (st.heap.get? q).isSome) →
    ∃ h', codecLoop quat f ic (cs.map fun c => Chunk.back u ⟨.prop c, true⟩) st =
        ({ st with heap := h' }, .next) ∧ h'.map Prod.fst = st.heap.map Prod.fst ∧
      ∀ (q : Id) (i : Inst ρ) (inst : Inst Id), insts[q.toNat]? = some i →
        st.heap.get? q = some inst →
        ∃ P : Map Bytes (Value Id), h'.get? q = some { inst with properties := P } ∧
          (i.className ∉ names → P = inst.properties) ∧
          (i.className ∈ names → ∀ n,
            (Written place (valuesOf (classInsts insts i.className) n) → ∃ w, P.get? n = some w ∧
              Expected φ d (valuesOf (classInsts insts i.className) n) (i.properties.get? n) w) ∧
            (¬ Written place (valuesOf (classInsts insts i.className) n) →
              P.get? n = inst.properties.get? n)) := by
  intro names
  induction names with
  | nil =>
    intro k cs _ _ _ hp ic st _ _
    simp only [PropsOk] at hp
    subst hp
    exact ⟨st.heap, rfl, rfl, fun q i inst _ hq => ⟨inst.properties, hq, fun _ => rfl, by simp⟩⟩
  | cons cls names ih =>
    intro k cs hk hnd hg hp ic st ctx hin
    obtain ⟨hnc, hnd⟩ := List.nodup_cons.1 hnd
    simp only [List.length_cons] at hk
    obtain ⟨plan, xs, ys, rfl, hplan, hxs, hys⟩ := hp
    have hmem : ∀ i ∈ classInsts insts cls, i ∈ insts := by
      intro i hi
      obtain ⟨y, hy, rfl⟩ := List.mem_map.1 hi
      exact List.mem_iff_getElem?.2 ⟨y.2, (mem_members.1 hy).1⟩
    have hgk := hg (cls, k) (by simp [List.zipIdx_cons])
    have hids : (clsChunk place insts (cls, k)).canon.ids =
      (members insts.zipIdx cls).map fun x => BitVec.ofNat 32 x.2 := rfl
    obtain ⟨h1, a1, a2, a3, a4⟩ := propsOfClass (insts := classInsts insts cls) quat f (φ := φ)
      (used := used) u
      (by rw [hcc]; exact outOfBounds_ofNat (show k < N by omega) hN) hgk
      (by rw [hids]; simp [classInsts]) (by rw [hids]; exact ids_nodup hn cls)
      (fun i hi => hsup i (hmem i hi)) (fun i hi => hu i (hmem i hi)) hxs
      (fun x hx => (hplan.2.1 x hx).2) ic st ctx (by
        intro q hq
        rw [hids] at hq
        obtain ⟨x, hx, rfl⟩ := List.mem_map.1 hq
        obtain ⟨e1, _⟩ := mem_members.1 hx
        have hlt := (List.getElem?_eq_some_iff.1 e1).1
        exact hin _ x.1 (by rw [toNat_ofNat_lt (by omega)]; exact e1))
    rw [hids] at a3 a4
    obtain ⟨h2, b1, b2, b3⟩ := ih (k + 1) ys (by omega) hnd
      (fun c hc => hg c (by rw [List.zipIdx_cons]; exact List.mem_cons_of_mem _ hc)) hys
      (ic + xs.length) { st with heap := h1 } (ctx.keys a2) (by
        intro q i hq
        have := hin q i hq
        rw [Map.get?_isSome] at this ⊢
        show q ∈ h1.map Prod.fst
        rw [a2]; exact this)
    refine ⟨h2, ?_, by rw [b2]; exact a2, ?_⟩
    · rw [List.map_append, codecLoop_next _ _ _ _ _ a1, List.length_map]
      exact b1
    · intro q i inst hq hi
      by_cases hc : i.className = cls
      · subst hc
        obtain ⟨j, hj1, hj2⟩ := pos_of_class hq
        obtain ⟨P, p1, p2, p3⟩ := a4 j q i inst hj1 hj2 hi
        obtain ⟨P', q1, q2, _⟩ := b3 q i _ hq p1
        have := q2 hnc
        subst this
        refine ⟨P', q1, by simp, ?_⟩
        intro _ n
        refine ⟨?_, ?_⟩
        · intro hw
          exact p3 n (hplan.2.2 n hw)
        · intro hw
          refine p2 n ?_
          intro hn
          obtain ⟨x, hx, rfl⟩ := List.mem_map.1 hn
          exact hw (hplan.2.1 x hx).1
      · have hnq := not_mem_class hn hq hc
        have hi' : h1.get? q = some inst := by rw [a3 q hnq, hi]
        obtain ⟨P, p1, p2, p3⟩ := b3 q i inst hq hi'
        refine ⟨P, p1, ?_, ?_⟩
        · intro h; exact p2 (fun h' => h (List.mem_cons_of_mem _ h'))
        · intro h
          exact p3 ((List.mem_cons.1 h).resolve_left hc)

/-- The instance decoded for an instance. -/
def decodedId (L : Map ρ (Inst ρ)) (p : ρ) : Option Id :=
  if p ∈ L.map Prod.fst then some (refNum L (some p)) else none

/-- Every chunk of the encoded tree has a payload shorter than 2^32. -/
def SmallChunks (it : Iter) (srt : Sorter) (hash : Bytes → Bytes) (place : Bool) (h : Heap ρ)
    (root : Root ρ) : Prop :=
  ∀ f, codecEncode it srt hash place h root = .ok f → ∀ c ∈ f.chunks,
    ∀ e, c.body.payload = .ok e → e.length < 2 ^ 32

theorem foldl_set {m0 vs : Map Bytes Bytes} (hok : vs.Ok) (k : Bytes) :
    (vs.foldl (fun m kv => m.set kv.1 kv.2) m0).get? k = (vs.get? k).or (m0.get? k) := by
  induction vs generalizing m0 with
  | nil => simp
  | cons x vs ih =>
    obtain ⟨a, b⟩ := x
    simp only [Map.Ok, List.map_cons, List.nodup_cons] at hok
    simp only [List.foldl_cons]
    rw [ih hok.2, Map.get?_set]
    simp only [Map.get?]
    by_cases hk : k = a
    · subst hk
      have : Map.get? vs k = none := Map.get?_eq_none.2 hok.1
      simp [this]
    · have : ¬ a = k := fun e => hk e.symm
      simp [hk, this]

theorem foldl_set_ok : ∀ (vs : List (Bytes × Bytes)) {m0 : Map Bytes Bytes}, m0.Ok →
    Map.Ok (vs.foldl (fun m kv => m.set kv.1 kv.2) m0) := by
  intro vs
  induction vs with
  | nil => intro m0 h; exact h
  | cons x vs ih => intro m0 h; exact ih (Map.ok_set h _ _)

theorem sublist_keys {h h' : Heap Id} (hk : h'.map Prod.fst = h.map Prod.fst) (q : Id) :
    (h'.get? q).isSome = (h.get? q).isSome := by
  rw [Bool.eq_iff_iff, Map.get?_isSome, Map.get?_isSome, hk]

theorem ids_of_inst {L : Map ρ (Inst ρ)} (hok : L.Ok) (hn : L.length < 2 ^ 31) {p : ρ}
    {inst : Inst ρ} (h : (p, inst) ∈ L) :
    (L.map Prod.snd)[(refNum L (some p)).toNat]? = some inst ∧ refNum L (some p) ≠ -1 ∧
      outOfBounds (refNum L (some p)) (BitVec.ofNat 32 L.length) = false := by
  obtain ⟨i, hi⟩ := List.mem_iff_getElem?.1 h
  have hlt := (List.getElem?_eq_some_iff.1 hi).1
  have := refNum_of_idx hok hi
  simp only at this
  rw [this, toNat_ofNat_lt (by omega)]
  exact ⟨by simp [hi], ofNat_ne_neg (by omega), outOfBounds_ofNat hlt hn⟩

theorem inst_of_id {L : Map ρ (Inst ρ)} (hok : L.Ok) {q : Id} {i : Inst ρ}
    (h : (L.map Prod.snd)[q.toNat]? = some i) : ∃ p, (p, i) ∈ L ∧ q = refNum L (some p) := by
  rw [List.getElem?_map] at h
  cases hx : L[q.toNat]? with
  | none => rw [hx] at h; cases h
  | some x =>
    rw [hx] at h
    simp only [Option.map_some, Option.some.injEq] at h
    subst h
    refine ⟨x.1, List.mem_iff_getElem?.2 ⟨_, hx⟩, ?_⟩
    rw [refNum_of_idx hok hx]
    simp

theorem Val.type_ne_optional (v : Val) : v.type ≠ .optional := by
  cases v <;> simp [Val.type]

omit [DecidableEq ρ] in
theorem propsOk_mem {hash : Bytes → Bytes} {ref : Option ρ → BitVec 32} {place : Bool}
    {insts : List (Inst ρ)} {sh : Shared} : ∀ {names : List Bytes} {k : Nat} {cs : List PropChunk},
    PropsOk hash ref place insts sh k names cs → ∀ c ∈ cs, ∃ x ∈ names.zipIdx k, ∃ p,
      Written place (valuesOf (classInsts insts x.1) p.1) ∧
      PlanSpec place (valuesOf (classInsts insts x.1) p.1) p.2 ∧
      ChunkOk hash ref sh (BitVec.ofNat 32 x.2) (classInsts insts x.1) p c := by
  intro names
  induction names with
  | nil => intro k cs h c hc; simp only [PropsOk] at h; subst h; cases hc
  | cons cls names ih =>
    intro k cs h c hc
    obtain ⟨plan, xs, ys, rfl, hplan, hxs, hys⟩ := h
    rw [List.zipIdx_cons]
    rcases List.mem_append.1 hc with hc | hc
    · refine ⟨(cls, k), by simp, ?_⟩
      obtain ⟨p, hp, hpc⟩ := forall₂_mem hxs c hc
      exact ⟨p, (hplan.2.1 p hp).1, (hplan.2.1 p hp).2, hpc⟩
    · obtain ⟨x, hx, r⟩ := ih hys c hc
      exact ⟨x, List.mem_cons_of_mem _ hx, r⟩

omit [DecidableEq ρ] in
theorem good_propChunk {hash : Bytes → Bytes} {ref : Option ρ → BitVec 32} {place : Bool}
    {insts : List (Inst ρ)} {sh : Shared} {cid : BitVec 32} {p : Bytes × Kind} {c : PropChunk}
    {g : Map (BitVec 32) (Nat × InstChunk)} {i : Nat} {ch : InstChunk}
    (hw : Written place (valuesOf insts p.1)) (hp : PlanSpec place (valuesOf insts p.1) p.2)
    (hc : ChunkOk hash ref sh cid insts p c) (hg : g.get? cid = some (i, ch))
    (hlen : ch.ids.length = insts.length)
    (hsup : ∀ i ∈ insts, ∀ n v, i.properties.get? n = some v → Supported v)
    (hf : (Body.prop c).Fits) : (Body.prop c).Good g := by
  obtain ⟨c1, c2, c3⟩ := hc
  have hne : insts ≠ [] := by
    rintro rfl; exact hw.1 rfl
  obtain ⟨n, k⟩ := p
  cases k with
  | plain t =>
    obtain ⟨vs, e1, e2⟩ := c3
    refine good_prop e1 (by rw [c1]; exact hg) ?_ hf
    have hl := e2.length_eq
    refine ⟨hp.1, ?_, by rw [hlen, hl], ofType_arr ?_ (.inl e1) hf⟩
    · rintro rfl
      simp only [List.length_nil, List.length_eq_zero_iff] at hl
      exact hne hl
    · intro v hv
      obtain ⟨_, _, h⟩ := forall₂_mem e2 v hv
      exact h.1
  | opt t =>
    obtain ⟨vs, e1, e2⟩ := c3
    refine good_prop e1 (by rw [c1]; exact hg) ?_ hf
    have hl := e2.length_eq
    have hvne : vs ≠ [] := by
      rintro rfl
      simp only [List.length_nil, List.length_eq_zero_iff] at hl
      exact hne hl
    have htype : ∀ v ∈ vs.map Prod.fst, v.type = t := by
      intro v hv
      obtain ⟨x, hx, rfl⟩ := List.mem_map.1 hv
      obtain ⟨_, _, h⟩ := forall₂_mem e2 x hx
      exact h.1
    refine ⟨?_, ?_, by simpa using hvne, by simp [hlen, hl], by simp [hlen, hl],
      ofType_arr htype (.inr ⟨_, e1⟩) hf⟩
    · obtain ⟨x, hx⟩ := List.exists_mem_of_ne_nil _ hvne
      rw [← htype x.1 (List.mem_map_of_mem (f := Prod.fst) hx)]
      exact Val.type_ne_optional _
    · obtain ⟨v, hv⟩ := List.exists_mem_of_ne_nil _ hw.1
      obtain ⟨typ, o, rfl, e⟩ := hp v hv
      obtain ⟨i, hi, hi2⟩ := List.mem_filterMap.1 hv
      have := (hsup i hi _ _ hi2).1
      rw [interleaved_of e, this]

/-- The parts of an encoded tree. -/
structure Encoded (hash : Bytes → Bytes) (place : Bool) (root : Root ρ) (l : Map ρ (Inst ρ))
    (f : FormatModel) (names : List Bytes) (pairs : List (ρ × Option ρ)) (props : List PropChunk)
    (shared : Shared) (metas shareds : List Chunk) : Prop where
  version : f.version = 0
  classCount : f.classCount = BitVec.ofNat 32 names.length
  instanceCount : f.instanceCount = BitVec.ofNat 32 l.length
  trailing : f.trailing = []
  chunks : f.chunks = (metas ++ shareds) ++ (names.zipIdx.map (fun c =>
    (⟨.inst (clsChunk place (l.map Prod.snd) c), true⟩ : Chunk)) ++
    (props.map (fun c => (⟨.prop c, true⟩ : Chunk)) ++
      [⟨.parent ⟨0, pairs.map (fun x => refNum l (some x.1)), pairs.map (fun x => refNum l x.2)⟩,
        true⟩, ⟨.end_ endTag, false⟩]))
  metas : (metas = [] ∧ root.metadata = []) ∨
    ∃ vs : Map Bytes Bytes, vs.Perm root.metadata ∧ metas = [⟨.metadata vs, true⟩]
  shareds : (shareds = [] ∧ shared = []) ∨
    shareds = [⟨.shared ⟨0, shared.map fun e => (List.replicate 16 0#8, e.2)⟩, true⟩]
  small : l.length < 2 ^ 31
  nodup : names.Nodup
  sorted : names.Pairwise fun a b => bytesLt a b = true
  mem : ∀ cls, cls ∈ names ↔ ∃ i ∈ l.map Prod.snd, i.className = cls
  few : names.length ≤ l.length
  pairs_length : pairs.length = l.length
  pairs_child : ∀ x ∈ pairs, x.1 ∈ l.map Prod.fst
  pairs_parent : ∀ x ∈ pairs, ∀ q, x.2 = some q → q ∈ l.map Prod.fst
  pairs_roots : kidsOf pairs none = root.instances
  pairs_children : ∀ x ∈ l, kidsOf pairs (some x.1) = x.2.children
  sharedOk : SharedOk hash (UsedShared l) shared
  propsOk : PropsOk hash (refNum l) place (l.map Prod.snd) shared 0 names props

theorem encoded' (it : Iter) (srt : Sorter) (hash : Bytes → Bytes) (place : Bool) (h : Heap ρ)
    (root : Root ρ) (l : Map ρ (Inst ρ)) (ht : Trees h root.instances l)
    (f : FormatModel) (hf : codecEncode it srt hash place h root = .ok f)
    (hfit : ∀ c ∈ f.chunks, c.body.Fits) :
    ∃ names pairs props shared metas shareds,
      propChunks it srt hash place l 0 (classList it srt place (l.map Prod.snd)) [] = .ok (props, shared) ∧
      Encoded hash place root l f names pairs props shared metas shareds := by
  -- the parts of the model
  simp only [codecEncode, instList_trees ht, Res.ok_bind, Res.bind_eq_ok, Res.pure_eq,
    Res.ok.injEq] at hf
  obtain ⟨⟨props, shared⟩, hprops, parent, hparent, hf⟩ := hf
  obtain ⟨pairs, e1, e2, e3, e4, e5, e6⟩ := parentLinks_trees ht
  rw [e1] at hparent
  cases hparent
  obtain ⟨names, hnn, hns, hnm, hcl⟩ := classList_eq it srt place (l.map Prod.snd)
  have hprops0 := hprops
  rw [hcl] at hf hprops
  -- sizes
  have hpar := good_parent (g := []) (c := ⟨0, pairs.map (fun x => refNum l (some x.1)),
    pairs.map (fun x => refNum l x.2)⟩) (by simp) (hfit ⟨.parent _, true⟩ (by rw [← hf]; simp))
  have hn30 : l.length < 2 ^ 30 := by
    have := hpar.2
    simp only [List.length_map, e2] at this
    exact this
  have hn : l.length < 2 ^ 31 := by omega
  have hNle : names.length ≤ l.length := by
    have hsub : names ⊆ l.map (fun x => x.2.className) := by
      intro c hc
      obtain ⟨i, hi, rfl⟩ := (hnm c).1 hc
      obtain ⟨x, hx, rfl⟩ := List.mem_map.1 hi
      exact List.mem_map.2 ⟨x, hx, rfl⟩
    have := List.Nodup.length_le_of_subset hnn hsub
    simpa using this
  obtain ⟨_, hsh, hpo⟩ := propChunks_ok (used := UsedShared l) hn
    (fun x hx n s hs => ⟨x, hx, n, hs⟩) names 0 [] shared props ⟨by simp, by simp⟩ hprops
  refine ⟨names, pairs, props, shared,
    (if root.metadata.length = 0 then []
      else [⟨.metadata (srt.run metaLess (it.run [4] root.metadata)), true⟩]),
    (if shared.length = 0 then []
      else [⟨.shared ⟨0, shared.map fun e => (List.replicate 16 0#8, e.2)⟩, true⟩]), hprops0, ?_⟩
  exact {
    version := by rw [← hf]
    classCount := by rw [← hf]; simp
    instanceCount := by rw [← hf]
    trailing := by rw [← hf]
    chunks := by
      rw [← hf]
      simp only [List.map_map, List.append_assoc]
      rfl
    metas := by
      split
      · rename_i h0; exact .inl ⟨rfl, List.length_eq_zero_iff.1 h0⟩
      · exact .inr ⟨_, (srt.perm _ _).trans (it.perm _ _), rfl⟩
    shareds := by
      split
      · rename_i h0; exact .inl ⟨rfl, List.length_eq_zero_iff.1 h0⟩
      · exact .inr rfl
    small := hn
    nodup := hnn
    sorted := hns
    mem := hnm
    few := hNle
    pairs_length := e2
    pairs_child := e3
    pairs_parent := e4
    pairs_roots := e5
    pairs_children := e6
    sharedOk := hsh
    propsOk := hpo }

theorem encoded (it : Iter) (srt : Sorter) (hash : Bytes → Bytes) (place : Bool) (h : Heap ρ)
    (root : Root ρ) (l : Map ρ (Inst ρ)) (ht : Trees h root.instances l)
    (f : FormatModel) (hf : codecEncode it srt hash place h root = .ok f)
    (hfit : ∀ c ∈ f.chunks, c.body.Fits) :
    ∃ names pairs props shared metas shareds,
      Encoded hash place root l f names pairs props shared metas shareds := by
  obtain ⟨names, pairs, props, shared, metas, shareds, _, e⟩ := encoded' it srt hash place h root l ht f hf hfit
  exact ⟨names, pairs, props, shared, metas, shareds, e⟩

section
variable {hash : Bytes → Bytes} {place : Bool} {root : Root ρ} {l : Map ρ (Inst ρ)}
  {f : FormatModel} {names : List Bytes} {pairs : List (ρ × Option ρ)} {props : List PropChunk}
  {shared : Shared} {metas shareds : List Chunk}

theorem Encoded.pre_noInst (e : Encoded hash place root l f names pairs props shared metas shareds) :
    ∀ c ∈ metas ++ shareds, ∀ x, c.body ≠ .inst x := by
  intro c hc x
  rcases List.mem_append.1 hc with hc | hc
  · rcases e.metas with ⟨h, _⟩ | ⟨vs, _, h⟩ <;> rw [h] at hc
    · cases hc
    · simp only [List.mem_singleton] at hc; subst hc; simp
  · rcases e.shareds with ⟨h, _⟩ | h <;> rw [h] at hc
    · cases hc
    · simp only [List.mem_singleton] at hc; subst hc; simp

theorem Encoded.groups (e : Encoded hash place root l f names pairs props shared metas shareds) :
    ∀ c ∈ names.zipIdx, (groupsOf [] 0 f.chunks).get? (BitVec.ofNat 32 c.2) =
      some ((metas ++ shareds).length + c.2, (clsChunk place (l.map Prod.snd) c).canon) := by
  have h1 := groupsOf_classes (fun cls => chunkOf place cls (members (l.map Prod.snd).zipIdx cls))
    names 0 (metas ++ shareds).length [] (by have := e.few; have := e.small; omega)
  intro c hc
  have h2 := h1.1 c hc
  rw [e.chunks, groupsOf_append, groupsOf_noInst _ _ _ e.pre_noInst, groupsOf_append, groupsOf_append,
    groupsOf_noInst (props.map _), groupsOf_noInst, Nat.zero_add]
  · exact h2
  · intro c hc; simp only [List.mem_cons, List.not_mem_nil, or_false] at hc
    rcases hc with rfl | rfl <;> simp
  · intro c hc
    obtain ⟨x, _, rfl⟩ := List.mem_map.1 hc
    simp

theorem Encoded.good (e : Encoded hash place root l f names pairs props shared metas shareds)
    (hsup : ∀ x ∈ l, ∀ n v, x.2.properties.get? n = some v → Supported v)
    (hfit : ∀ c ∈ f.chunks, c.body.Fits) : GoodChunks [] 0 f.chunks := by
  have hG := e.groups
  rw [e.chunks] at hfit hG ⊢
  refine goodChunks_append _ _ _ _ (by simp) (goodPart_noInst _ _ ?_) ?_
  · intro c hc
    refine ⟨e.pre_noInst c hc, ?_⟩
    have hf := hfit c (List.mem_append_left _ hc)
    rcases List.mem_append.1 hc with hc | hc
    · rcases e.metas with ⟨h, _⟩ | ⟨vs, _, h⟩ <;> rw [h] at hc
      · cases hc
      · simp only [List.mem_singleton] at hc; subst hc
        exact ⟨good_meta hf, by simp [Body.sig, sigMETA, sigEND], hf⟩
    · rcases e.shareds with ⟨h, _⟩ | h <;> rw [h] at hc
      · cases hc
      · simp only [List.mem_singleton] at hc; subst hc
        refine ⟨good_shared ?_ hf, by simp [Body.sig, sigSSTR, sigEND], hf⟩
        intro hv hhv
        obtain ⟨x, _, rfl⟩ := List.mem_map.1 hhv
        simp
  · rw [groupsOf_append, groupsOf_append, groupsOf_append] at hG
    rw [groupsOf_noInst (props.map _)] at hG
    · rw [groupsOf_noInst [_, _]] at hG
      · refine goodChunks_append _ _ _ _ (by simp) ?_ ?_
        · have := goodPart_insts (names.zipIdx.map (clsChunk place (l.map Prod.snd)))
            (0 + (metas ++ shareds).length) (groupsOf [] 0 (metas ++ shareds)) (by
              intro c hc
              obtain ⟨x, hx, rfl⟩ := List.mem_map.1 hc
              refine ⟨fun _ => by simp [clsChunk, chunkOf], hfit ⟨.inst _, true⟩ ?_⟩
              refine List.mem_append_right _ (List.mem_append_left _ (List.mem_map.2 ⟨x, hx, rfl⟩)))
          rw [List.map_map] at this
          exact this
        · refine goodChunks_append _ _ _ _ (by simp) (goodPart_noInst _ _ ?_) ?_
          · intro c hc
            obtain ⟨x, hx, rfl⟩ := List.mem_map.1 hc
            have hf := hfit ⟨.prop x, true⟩ (List.mem_append_right _ (List.mem_append_right _
              (List.mem_append_left _ hc)))
            refine ⟨by simp, ?_, by simp [Body.sig, sigPROP, sigEND], hf⟩
            obtain ⟨y, hy, p, p1, p2, p3⟩ := propsOk_mem e.propsOk x hx
            refine good_propChunk p1 p2 p3 (hG y hy) (by simp [InstChunk.canon, clsChunk, chunkOf, classInsts]) ?_ hf
            intro i hi n v hv
            obtain ⟨z, hz, rfl⟩ := List.mem_map.1 hi
            have := List.mem_iff_getElem?.2 ⟨z.2, (mem_members.1 hz).1⟩
            obtain ⟨w, hw, hw2⟩ := List.mem_map.1 this
            rw [← hw2] at hv
            exact hsup w hw n v hv
          · have hf := hfit ⟨.parent _, true⟩ (List.mem_append_right _ (List.mem_append_right _
              (List.mem_append_right _ List.mem_cons_self)))
            refine ⟨good_parent (by simp) hf, by simp [Body.sig, sigPRNT, sigEND], hf, endTag, rfl, by
              decide⟩
      · intro c hc; simp only [List.mem_cons, List.not_mem_nil, or_false] at hc
        rcases hc with rfl | rfl <;> simp
    · intro c hc
      obtain ⟨x, _, rfl⟩ := List.mem_map.1 hc
      simp

theorem Encoded.noWarns (e : Encoded hash place root l f names pairs props shared metas shareds)
    (u : Bool) : (f.chunks.zipIdx 0).flatMap (fun c => backWarns u c.2 c.1) = [] := by
  rw [List.flatMap_eq_nil_iff]
  intro x hx
  have hc : x.1 ∈ f.chunks := List.fst_mem_of_mem_zipIdx hx
  rw [e.chunks] at hc
  simp only [List.mem_append] at hc
  rcases hc with (hc | hc) | hc | hc | hc
  · rcases e.metas with ⟨h, _⟩ | ⟨vs, _, h⟩ <;> rw [h] at hc
    · cases hc
    · simp only [List.mem_singleton] at hc; rw [hc]; rfl
  · rcases e.shareds with ⟨h, _⟩ | h <;> rw [h] at hc
    · cases hc
    · simp only [List.mem_singleton] at hc; rw [hc]; rfl
  · obtain ⟨y, _, hy⟩ := List.mem_map.1 hc
    rw [← hy]; rfl
  · obtain ⟨y, _, hy⟩ := List.mem_map.1 hc
    rw [← hy]; rfl
  · simp only [List.mem_cons, List.not_mem_nil, or_false] at hc
    rcases hc with hc | hc <;> rw [hc]
    · rfl
    · simp [backWarns]

/-- The state after the first chunks. -/
abbrev stOf (shared : Shared) (M : Map Bytes Bytes) (h : Heap Id) : DecState :=
  { shared := shared.map (fun e => (List.replicate 16 0#8, e.2)), root := { metadata := M }, heap := h }

theorem Encoded.pre_decode (e : Encoded hash place root l f names pairs props shared metas shareds)
    (hm : root.metadata.Ok) (quat : Quat) (f' : FormatModel) (u : Bool) :
    ∃ M : Map Bytes Bytes, M.Ok ∧ (∀ k, M.get? k = root.metadata.get? k) ∧
      codecLoop quat f' 0 ((metas ++ shareds).map (Chunk.back u)) {} =
        ((stOf shared M []), .next) := by
  have h1 : ∃ M : Map Bytes Bytes, M.Ok ∧ (∀ k, M.get? k = root.metadata.get? k) ∧
      codecLoop quat f' 0 (metas.map (Chunk.back u)) {} = ({ root := { metadata := M } }, .next) := by
    rcases e.metas with ⟨h, h2⟩ | ⟨vs, hp, h⟩ <;> rw [h]
    · exact ⟨[], Map.ok_nil, by simp [h2], rfl⟩
    · have hok : vs.Ok := (hp.map Prod.fst).nodup_iff.2 hm
      refine ⟨vs.foldl (fun m kv => m.set kv.1 kv.2) [], foldl_set_ok vs Map.ok_nil, ?_, ?_⟩
      · intro k
        rw [foldl_set hok, Map.get?_perm hok hp]
        simp
      · rfl
  obtain ⟨M, hMok, hM, h1⟩ := h1
  refine ⟨M, hMok, hM, ?_⟩
  rw [List.map_append, codecLoop_next _ _ _ _ _ h1]
  rcases e.shareds with ⟨h, h2⟩ | h <;> rw [h]
  · rw [h2]; rfl
  · rfl

theorem Encoded.base (e : Encoded hash place root l f names pairs props shared metas shareds)
    (q : Id) : baseInst place (l.map Prod.snd) names q = ((l.map Prod.snd)[q.toNat]?).map fun i =>
      { className := i.className, isService := place && i.isService } := by
  rw [baseInst]
  cases hi : (l.map Prod.snd)[q.toNat]? with
  | none => rfl
  | some i =>
    have : i.className ∈ names := (e.mem _).2 ⟨i, List.mem_iff_getElem?.2 ⟨_, hi⟩, rfl⟩
    simp [this]

omit [DecidableEq ρ] in
theorem none_id (hn : l.length < 2 ^ 31) : (l.map Prod.snd)[(-1 : Id).toNat]? = none := by
  rw [List.getElem?_eq_none_iff, List.length_map]
  have : (-1 : Id).toNat = 4294967295 := rfl
  omega

/-- What is stored for missing references and shared strings: a reference to the first instance, and a shared string of the
tree. -/
def MissingOk (l : Map ρ (Inst ρ)) (d : Missing Id) : Prop :=
  d.first = (l.map Prod.fst).head?.bind (decodedId l) ∧ ((∃ s, UsedShared l s) → UsedShared l d.shared)

theorem Encoded.decode (e : Encoded hash place root l f names pairs props shared metas shareds)
    (hok : l.Ok) (hch : ∀ x ∈ l, ∀ c ∈ x.2.children, c ∈ l.map Prod.fst)
    (hro : ∀ p ∈ root.instances, p ∈ l.map Prod.fst)
    (hm : root.metadata.Ok)
    (hsup : ∀ x ∈ l, ∀ n v, x.2.properties.get? n = some v → Supported v)
    (hcol : ∀ s s', UsedShared l s → UsedShared l s' → hash s = hash s' → s = s')
    (hfit : ∀ c ∈ f.chunks, c.body.Fits) (quat : Quat) (u : Bool) :
    ∃ h' root' d, codecDecode quat ⟨0, f.classCount, f.instanceCount, f.chunks.map (Chunk.back u),
          f.trailing, groupsOf [] 0 f.chunks⟩ = ([], .ok (h', root')) ∧
      ((∀ x rest, shared = x :: rest → x.2 = d.shared) ∧ root'.metadata.Ok) ∧
      Corresp l (decodedId l) h' ∧ MissingOk l d ∧
      root'.instances.map some = root.instances.map (decodedId l) ∧
      (∀ k, root'.metadata.get? k = root.metadata.get? k) ∧
      ∀ p inst, (p, inst) ∈ l → ∃ q inst', decodedId l p = some q ∧ h'.get? q = some inst' ∧
        inst'.className = inst.className ∧ inst'.reference = [] ∧
        inst'.isService = (place && inst.isService) ∧
        inst'.children.map some = inst.children.map (decodedId l) ∧
        ∀ n, (Written place (valuesOf (classmates l inst.className) n) →
            ∃ w, inst'.properties.get? n = some w ∧
              Expected (decodedId l) d (valuesOf (classmates l inst.className) n)
                (inst.properties.get? n) w) ∧
          (¬ Written place (valuesOf (classmates l inst.className) n) →
            inst'.properties.get? n = none) := by
  have hn := e.small
  have hlen : (l.map Prod.snd).length < 2 ^ 31 := by simpa using hn
  have hNle := e.few
  generalize hf' : (⟨0, f.classCount, f.instanceCount, f.chunks.map (Chunk.back u),
          f.trailing, groupsOf [] 0 f.chunks⟩ : FormatModel) = f'
  have hG : ∀ c ∈ names.zipIdx, f'.groupLookup.get? (BitVec.ofNat 32 c.2) =
      some ((metas ++ shareds).length + c.2, (clsChunk place (l.map Prod.snd) c).canon) := by
    rw [← hf']; exact e.groups
  have hcc : f'.classCount = BitVec.ofNat 32 names.length := by rw [← hf']; exact e.classCount
  have hic : f'.instanceCount = BitVec.ofNat 32 (l.map Prod.snd).length := by
    rw [← hf', List.length_map]; exact e.instanceCount
  obtain ⟨M, hMok, hM, hpre⟩ := e.pre_decode hm quat f' u
  -- INST
  obtain ⟨h1, i1, i2⟩ := instPhase quat f' place (l.map Prod.snd) hlen hic (metas ++ shareds).length
    names.length (by omega) hcc u names 0 []
    (stOf shared M [])
    (by omega) (by
      intro c hc
      rw [hG c hc]; rfl) (by simpa using e.nodup) (by
      intro q
      simp only [baseInst]
      split <;> simp)
  simp only [List.nil_append] at i2
  have i2 : ∀ q, h1.get? q = ((l.map Prod.snd)[q.toNat]?).map fun i =>
      { className := i.className, isService := place && i.isService } :=
    fun q => by rw [i2, e.base]
  -- PROP
  have hshlen : shared.length < 2 ^ 32 := by
    rcases e.shareds with ⟨_, h⟩ | h
    · rw [h]; decide
    · have := good_shared (g := []) (c := ⟨0, shared.map fun e => (List.replicate 16 0#8, e.2)⟩) (by
        intro hv hhv
        obtain ⟨x, _, rfl⟩ := List.mem_map.1 hhv
        simp) (hfit ⟨.shared _, true⟩ (by rw [e.chunks, h]; simp))
      simpa using this.1
  obtain ⟨s0, hs0, hs0'⟩ : ∃ s0 : Bytes, (∀ x rest, shared = x :: rest → x.2 = s0) ∧
      ((∃ s, UsedShared l s) → UsedShared l s0) := by
    cases hsh : shared with
    | nil =>
      by_cases hs : ∃ s, UsedShared l s
      · obtain ⟨s, hs⟩ := hs
        exact ⟨s, nofun, fun _ => hs⟩
      · exact ⟨[], nofun, fun h => absurd h hs⟩
    | cons x rest =>
      refine ⟨x.2, ?_, fun _ => (e.sharedOk.1 x (by rw [hsh]; simp)).2⟩
      rintro _ _ ⟨⟩
      rfl
  have hctx : Ctx hash (UsedShared l) (refNum l) shared (decodedId l)
      ⟨(l.map Prod.fst).head?.bind (decodedId l), s0⟩ h1
      (shared.map fun e => (List.replicate 16 0#8, e.2)) := by
    refine ⟨?_, ?_, ?_, ?_⟩
    · intro p
      have hneg : lookupRef h1 (-1) = none := by
        simp only [lookupRef, i2, none_id hn]
        rfl
      cases p with
      | none => exact hneg
      | some p =>
        simp only [Option.bind_some, decodedId]
        by_cases hp : p ∈ l.map Prod.fst
        · obtain ⟨x, hx, rfl⟩ := List.mem_map.1 hp
          obtain ⟨a, _, _⟩ := ids_of_inst hok hn (p := x.1) (inst := x.2) hx
          rw [if_pos hp, lookupRef, i2, a]
          rfl
        · rw [if_neg hp, refNum_not_mem hp]; exact hneg
    · have hzero : ((0 : Id).toNat) = 0 := rfl
      cases hl : l with
      | nil =>
        simp only [lookupRef, i2, hl]
        rfl
      | cons x rest =>
        obtain ⟨a, _, _⟩ := ids_of_inst hok hn (p := x.1) (inst := x.2) (by rw [hl]; simp)
        have href : refNum l (some x.1) = 0 := by
          simp [refNum, hl, List.idxOf?_cons]
        simp only [lookupRef, i2, hl, List.map_cons, List.head?_cons, Option.bind_some, decodedId]
        have hmem : x.1 ∈ x.1 :: rest.map Prod.fst := by simp
        rw [← hl, href]
        simp only [hmem, if_true]
        rfl
    · intro hne
      obtain ⟨x, rest, hx⟩ := List.exists_cons_of_ne_nil hne
      exact ⟨List.replicate 16 0#8, by rw [hx]; simp [hs0 x rest hx]⟩
    · intro s hs k x hk hx
      have hlt := (List.getElem?_eq_some_iff.1 hk).1
      obtain ⟨hx1, hx2⟩ := e.sharedOk.1 x (List.mem_iff_getElem?.2 ⟨k, hk⟩)
      have : x.2 = s := hcol _ _ hx2 hs (by rw [← hx1, hx])
      refine ⟨List.replicate 16 0#8, ?_⟩
      rw [BitVec.toNat_ofNat, Nat.mod_eq_of_lt (by omega)]
      simp [hk, this]
  obtain ⟨h2, p1, p2, p3⟩ := propPhase quat f' (φ := decodedId l) place (l.map Prod.snd) hlen
    (metas ++ shareds).length names.length (by omega) hcc u (by
      intro i hi
      obtain ⟨x, hx, rfl⟩ := List.mem_map.1 hi
      exact hsup x hx) (used := UsedShared l) (by
      intro i hi n s hs
      obtain ⟨x, hx, rfl⟩ := List.mem_map.1 hi
      exact ⟨x, hx, n, hs⟩) names 0 props (by omega) e.nodup hG e.propsOk
    ((metas ++ shareds).length + names.length)
    (stOf shared M h1) hctx (by
      intro q i hq
      show (h1.get? q).isSome
      rw [i2, hq]; rfl)
  have hsome : ∀ p ∈ l.map Prod.fst, (h2.get? (refNum l (some p))).isSome := by
    intro p hp
    obtain ⟨x, hx, rfl⟩ := List.mem_map.1 hp
    obtain ⟨a, _, _⟩ := ids_of_inst hok hn (p := x.1) (inst := x.2) hx
    rw [sublist_keys (h := h1) p2, i2, a]; rfl
  -- PRNT
  obtain ⟨st', r1, r2, r3, r4, r5, r6, r7⟩ := parentLoop_good
    (ic := (metas ++ shareds).length + names.length + props.length) (n := f'.instanceCount)
    ((pairs.map (fun x => refNum l (some x.1))).zip (pairs.map (fun x => refNum l x.2))) 0
    (stOf shared M h2) (by
      intro x hx
      rw [List.zip_map', List.mem_map] at hx
      obtain ⟨y, hy, rfl⟩ := hx
      have hy1 := e.pairs_child y hy
      obtain ⟨z, hz, hz2⟩ := List.mem_map.1 hy1
      obtain ⟨_, _, a⟩ := ids_of_inst hok hn (p := z.1) (inst := z.2) hz
      simp only
      refine ⟨by rw [hic, List.length_map, ← hz2]; exact a, hsome _ hy1, ?_⟩
      intro hne
      cases hq : y.2 with
      | none => rw [hq] at hne; exact absurd rfl hne
      | some q => exact hsome q (e.pairs_parent y hy q hq))
  have hmapD : ∀ ps : List ρ, (∀ p ∈ ps, p ∈ l.map Prod.fst) →
      (ps.map fun p => refNum l (some p)).map some = ps.map (decodedId l) := by
    intro ps hps
    rw [List.map_map]
    apply List.map_congr_left
    intro p hp
    simp [decodedId, hps p hp]
  refine ⟨st'.heap, st'.root, ⟨(l.map Prod.fst).head?.bind (decodedId l), s0⟩, ?_, ⟨hs0, by rw [r4]; exact hMok⟩, ?_, ⟨rfl, hs0'⟩, ?_,
    ?_, ?_⟩
  · have hlast : codecLoop quat f' ((metas ++ shareds).length + names.length + props.length)
        ([⟨.parent ⟨0, pairs.map (fun x => refNum l (some x.1)), pairs.map (fun x => refNum l x.2)⟩,
        true⟩, ⟨.end_ endTag, false⟩].map (Chunk.back u))
        (stOf shared M h2) = (st', .stop) := by
      simp only [List.map_cons, List.map_nil, Chunk.back, Body.canon, codecLoop, codecStep,
        List.length_map, ne_eq, not_true_eq_false, if_false, r1]
      rw [if_neg (by decide)]
    have hall : codecLoop quat f' 0 f'.chunks {} = (st', .stop) := by
      have : f'.chunks = f.chunks.map (Chunk.back u) := by rw [← hf']
      rw [this, e.chunks, List.map_append, codecLoop_next _ _ _ _ _ hpre, List.length_map,
        List.map_append]
      have i1' : codecLoop quat f' (0 + (metas ++ shareds).length) ((names.zipIdx.map (fun c =>
        (⟨.inst (clsChunk place (l.map Prod.snd) c), true⟩ : Chunk))).map (Chunk.back u))
        (stOf shared M []) =
        ((stOf shared M h1), .next) := by
        rw [List.map_map, Nat.zero_add]
        exact i1
      rw [codecLoop_next _ _ _ _ _ i1', List.map_append, List.length_map, List.length_map,
        List.length_zipIdx, Nat.zero_add]
      have p1' : codecLoop quat f' ((metas ++ shareds).length + names.length)
        ((props.map (fun c => (⟨.prop c, true⟩ : Chunk))).map (Chunk.back u))
        (stOf shared M h1) =
        ((stOf shared M h2), .next) := by
        rw [List.map_map]
        exact p1
      rw [codecLoop_next _ _ _ _ _ p1', List.length_map, List.length_map]
      exact hlast
    rw [codecDecode, hall]
    simp only [r2]
  · refine ⟨?_, ?_, ?_⟩
    · intro p
      simp only [decodedId]
      split
      · rename_i h; simp [h]
      · rename_i h; simp [h]
    · intro p p' q hp hp'
      simp only [decodedId] at hp hp'
      split at hp
      · split at hp'
        · rename_i ha hb
          cases hp
          simp only [Option.some.injEq] at hp'
          have := refNum_inj hok hn (x := some p) (y := some p') (by rintro _ ⟨⟩; exact ha)
            (by rintro _ ⟨⟩; exact hb) hp'.symm
          exact Option.some.inj this
        · cases hp'
      · cases hp
    · intro q
      rw [sublist_keys (h := h2) r6, sublist_keys (h := h1) p2, i2]
      constructor
      · intro h
        cases hi : (l.map Prod.snd)[q.toNat]? with
        | none => rw [hi] at h; cases h
        | some i =>
          obtain ⟨p, hp, rfl⟩ := inst_of_id hok hi
          exact ⟨p, by simp only [decodedId]; rw [if_pos (List.mem_map.2 ⟨_, hp, rfl⟩)]⟩
      · rintro ⟨p, hp⟩
        simp only [decodedId] at hp
        split at hp
        · rename_i hpm
          cases hp
          obtain ⟨x, hx, rfl⟩ := List.mem_map.1 hpm
          obtain ⟨a, _, _⟩ := ids_of_inst hok hn (p := x.1) (inst := x.2) hx
          rw [a]; rfl
        · cases hp
  · rw [r5]
    have := kidsOf_ids hok hn e.pairs_parent (y := none) (by simp)
    rw [show refNum l none = -1 from rfl] at this
    rw [this, e.pairs_roots]
    simpa using hmapD _ hro
  · intro k
    rw [r4]; exact hM k
  · intro p inst hp
    have hpm : p ∈ l.map Prod.fst := List.mem_map.2 ⟨_, hp, rfl⟩
    obtain ⟨a1, a2, a3⟩ := ids_of_inst hok hn hp
    have b1 : h1.get? (refNum l (some p)) = some
      { className := inst.className, isService := place && inst.isService } := by
      rw [i2, a1]; rfl
    obtain ⟨P, c1, _, c3⟩ := p3 (refNum l (some p)) inst _ a1 b1
    have d1 := r7 _ a2
    rw [c1] at d1
    refine ⟨refNum l (some p), _, by simp [decodedId, hpm], d1, rfl, rfl, rfl, ?_, ?_⟩
    · have := kidsOf_ids hok hn e.pairs_parent (y := some p) (by rintro _ ⟨⟩; exact hpm)
      simp only [List.nil_append]
      rw [this, e.pairs_children (p, inst) hp]
      exact hmapD _ (hch _ hp)
    · intro n
      have := c3 ((e.mem _).2 ⟨inst, List.mem_map.2 ⟨_, hp, rfl⟩, rfl⟩) n
      rw [classInsts_eq] at this
      exact this

end

/-- Everything known about decoding an encoded tree. -/
theorem roundtrip (lz : LZ4) (hlz : lz.Lossless) (slack : Bytes → Nat) (quat : Quat) (noXML u : Bool)
    (it : Iter) (srt : Sorter) (hash : Bytes → Bytes) (place : Bool) (h : Heap ρ) (root : Root ρ)
    (l : Map ρ (Inst ρ)) (ht : Trees h root.instances l) (hm : root.metadata.Ok)
    (hsup : ∀ x ∈ l, ∀ n v, x.2.properties.get? n = some v → Supported v)
    (hcol : ∀ s s', UsedShared l s → UsedShared l s' → hash s = hash s' → s = s')
    (hsmall : SmallChunks it srt hash place h root) (b : Bytes)
    (hb : encodeRoot lz u it srt hash place h root = .ok b) :
    ∃ stats h' root' d, decodeRoot lz slack quat noXML b = ⟨[], [], stats, .ok (.tree h' root')⟩ ∧
      Corresp l (decodedId l) h' ∧ MissingOk l d ∧
      root'.instances.map some = root.instances.map (decodedId l) ∧
      (∀ k, root'.metadata.get? k = root.metadata.get? k) ∧
      ∀ p inst, (p, inst) ∈ l → ∃ q inst', decodedId l p = some q ∧ h'.get? q = some inst' ∧
        inst'.className = inst.className ∧ inst'.reference = [] ∧
        inst'.isService = (place && inst.isService) ∧
        inst'.children.map some = inst.children.map (decodedId l) ∧
        ∀ n, (Written place (valuesOf (classmates l inst.className) n) →
            ∃ w, inst'.properties.get? n = some w ∧
              Expected (decodedId l) d (valuesOf (classmates l inst.className) n)
                (inst.properties.get? n) w) ∧
          (¬ Written place (valuesOf (classmates l inst.className) n) →
            inst'.properties.get? n = none) := by
  simp only [encodeRoot, Res.bind_eq_ok] at hb
  obtain ⟨f, hf, hb⟩ := hb
  have hfit := hsmall f hf
  obtain ⟨names, pairs, props, shared, metas, shareds, e⟩ :=
    encoded it srt hash place h root l ht f hf hfit
  obtain ⟨stats, hd, _⟩ := Props.C08_file_roundtrip lz hlz slack noXML u f e.version
    (e.good hsup hfit) b hb
  obtain ⟨h', root', d, hc, _, rest⟩ := e.decode ht.2 (Forest.children_mem ht.1) (Forest.roots_mem ht.1)
    hm hsup hcol hfit quat u
  refine ⟨stats, h', root', d, ?_, rest⟩
  rw [decodeRoot, hd]
  simp only [e.noWarns u, hc, Res.ok_bind, Res.pure_eq]

end Rbxl

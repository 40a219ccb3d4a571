import Verif.Rbxl.EncMain
import Verif.Spec.FileLayout
/-!
# The layout of the file that is written for a tree
-/
namespace Rbxl
open Go Rbxfile Spec

variable {ρ : Type} [DecidableEq ρ]

/-! ### links -/

/-- `recInst` lists the instances after what is below them. -/
theorem recAll_postOrder {h : Heap ρ} {ps : List ρ} {l : Map ρ (Inst ρ)} (f : Forest h ps l) :
    ∀ (fuel : Nat) (par : Option ρ), l.length ≤ fuel →
    ∃ links, PostOrder h par ps links ∧ ∀ acc : List (ρ × Option ρ), ps.foldlM (fun acc c => do
        let l ← recInst h fuel par c
        pure (acc ++ l)) acc = .ok (acc ++ links) := by
  induction f with
  | nil => intro fuel par _; exact ⟨[], .nil, by simp⟩
  | @cons p ps inst below rest hp f1 f2 ih1 ih2 =>
    intro fuel par hfuel
    obtain _ | fuel := fuel
    · simp at hfuel
    simp only [List.length_cons, List.length_append] at hfuel
    obtain ⟨pa, a0, a1⟩ := ih1 fuel (some p) (by omega)
    obtain ⟨pb, b0, b1⟩ := ih2 (fuel + 1) par (by omega)
    have e1 : recInst h (fuel + 1) par p = .ok (pa ++ [(p, par)]) := by
      rw [recInst]
      simp only [hp]
      rw [a1]
      simp
    refine ⟨pa ++ (p, par) :: pb, .cons hp a0 b0, ?_⟩
    intro acc
    simp only [List.foldlM_cons, e1, Res.ok_bind, Res.pure_eq]
    have := b1 (acc ++ (pa ++ [(p, par)]))
    simp only [Res.pure_eq] at this
    rw [this]
    simp [List.append_assoc]

theorem numbered_some {l : Map ρ (Inst ρ)} (hok : l.Ok) (hn : l.length < 2 ^ 31) {p : ρ} (hp : p ∈ l.map Prod.fst) :
    Numbered l (some p) (refNum l (some p)) := by
  obtain ⟨i, v, hi⟩ := idx_of_mem hp
  have hlt := (List.getElem?_eq_some_iff.1 hi).1
  rw [refNum_of_idx hok hi]
  show (l[_]?).map Prod.fst = some p
  rw [toNat_ofNat_lt (by omega), hi]
  rfl

omit [DecidableEq ρ] in
theorem forall₂_map {α β : Type} {R : α → β → Prop} {g : α → β} : ∀ {l : List α}, (∀ x ∈ l, R x (g x)) → List.Forall₂ R l (l.map g)
  | [], _ => .nil
  | x :: l, h => .cons (h x List.mem_cons_self) (forall₂_map fun y hy => h y (List.mem_cons_of_mem _ hy))

omit [DecidableEq ρ] in
theorem partner_right {α β : Type} {R : α → β → Prop} {xs : List α} {ys : List β} (h : List.Forall₂ R xs ys) :
    ∀ x ∈ xs, ∃ y ∈ ys, R x y := by
  induction h with
  | nil => intro x hx; cases hx
  | cons h1 _ ih =>
    intro x hx
    rcases List.mem_cons.1 hx with rfl | hx
    · exact ⟨_, List.mem_cons_self, h1⟩
    · obtain ⟨y, hy, h2⟩ := ih x hx
      exact ⟨y, List.mem_cons_of_mem _ hy, h2⟩

/-- The PRNT chunk of a tree. -/
theorem parentLinks_layout {h : Heap ρ} {ps : List ρ} {l : Map ρ (Inst ρ)} (t : Trees h ps l) (hn : l.length < 2 ^ 31)
    {parent : ParentChunk} (hp : parentLinks h l ps = .ok parent) :
    parent.version = 0 ∧ ∃ links, PostOrder h none ps links ∧
      List.Forall₂ (fun x i => Numbered l (some x.1) i) links parent.children ∧
      List.Forall₂ (fun x i => Numbered l x.2 i) links parent.parents := by
  obtain ⟨pairs', h1, h2, k3, k4, -⟩ := recAll_forest t.1 (h.length + 1) none (by have := Trees.length_le t; omega) t.2 (by simp)
  obtain ⟨links, g1, g2⟩ := recAll_postOrder t.1 (h.length + 1) none (by have := Trees.length_le t; omega)
  have e : links = pairs' := by
    have := (g2 []).symm.trans (h1 [])
    simpa using this
  subst e
  have hlink : parent = ⟨0, links.map (fun x => refNum l (some x.1)), links.map (fun x => refNum l x.2)⟩ := by
    unfold parentLinks at hp
    split at hp
    · rename_i h0
      cases hp
      rw [h0] at h2
      rw [List.length_eq_zero_iff.1 h2]
      rfl
    · rw [g2 []] at hp
      simp only [Res.ok_bind, List.nil_append, h2, Nat.lt_irrefl, if_false, Nat.sub_self, List.replicate_zero,
        List.append_nil, Res.pure_eq, Res.ok.injEq] at hp
      exact hp.symm
  subst hlink
  refine ⟨rfl, links, g1, forall₂_map fun x hx => numbered_some t.2 hn ((k3 _).1 (List.mem_map_of_mem hx)), forall₂_map ?_⟩
  intro x hx
  rcases k4 x hx with e | ⟨q, hq, e⟩
  · rw [e]; rfl
  · rw [e]; exact numbered_some t.2 hn hq

/-! ### classes -/

omit [DecidableEq ρ] in
theorem members_range (insts : List (Inst ρ)) (cls : Bytes) : (members insts.zipIdx cls).map Prod.snd =
    (List.range insts.length).filter fun i => decide ((insts[i]?).map (·.className) = some cls) := by
  have key : ∀ (xs : List (Inst ρ)) (k : Nat), ((xs.zipIdx k).filter fun x => decide (x.1.className = cls)).map Prod.snd =
      (List.range' k xs.length).filter fun i => decide ((xs[i - k]?).map (·.className) = some cls) := by
    intro xs
    induction xs with
    | nil => intro k; rfl
    | cons i is ih =>
      intro k
      have e : (List.range' (k + 1) is.length).filter (fun j => decide (((i :: is)[j - k]?).map (·.className) = some cls)) =
          (List.range' (k + 1) is.length).filter fun j => decide ((is[j - (k + 1)]?).map (·.className) = some cls) := by
        refine List.filter_congr fun j hj => ?_
        have := List.mem_range'_1.1 hj
        rw [show j - k = (j - (k + 1)) + 1 by omega, List.getElem?_cons_succ]
      simp only [List.zipIdx_cons, List.length_cons, List.range'_succ, List.filter_cons, Nat.sub_self, List.getElem?_cons_zero,
        Option.map_some, Option.some.injEq, e, ← ih]
      split <;> simp
  have := key insts 0
  simpa [members, List.range_eq_range'] using this

theorem classInsts_mates (l : Map ρ (Inst ρ)) (cls : Bytes) : classInsts (l.map Prod.snd) cls = classmates l cls :=
  classInsts_eq _ _

theorem clsChunk_layout (place : Bool) (l : Map ρ (Inst ρ)) (hn : l.length < 2 ^ 31) {cls : Bytes} {k : Nat} (hk : k < 2 ^ 31)
    (hc : ∃ i ∈ l.map Prod.snd, i.className = cls) : ClassChunk place l k (clsChunk place (l.map Prod.snd) (cls, k)) := by
  have hmem : ∀ x ∈ members (l.map Prod.snd).zipIdx cls, x.2 < l.length := by
    intro x hx
    have := (List.getElem?_eq_some_iff.1 (mem_members.1 hx).1).1
    simpa using this
  have hany : ∀ i, i ∈ classmates l cls ↔ ∃ x ∈ members (l.map Prod.snd).zipIdx cls, x.1 = i := by
    intro i
    rw [← classInsts_mates, classInsts, List.mem_map]
  refine ⟨toNat_ofNat_lt (by omega), ?_, ?_, ?_, ?_⟩
  · obtain ⟨i, hi, e⟩ := hc
    obtain ⟨x, hx, rfl⟩ := List.mem_map.1 hi
    exact ⟨x, hx, e⟩
  · have := members_range (l.map Prod.snd) cls
    simp only [List.length_map, List.getElem?_map, Option.map_map] at this
    show List.map _ (List.map _ (members _ cls)) = _
    rw [List.map_map]
    refine Eq.trans (List.map_congr_left ?_) this
    intro x hx
    exact toNat_ofNat_lt (by have := hmem x hx; omega)
  · show (members (l.map Prod.snd).zipIdx cls).any (fun x => place && x.1.isService) = true ↔ _
    rw [List.any_eq_true]
    constructor
    · rintro ⟨x, hx, h⟩
      simp only [Bool.and_eq_true] at h
      exact ⟨h.1, x.1, (hany _).2 ⟨x, hx, rfl⟩, h.2⟩
    · rintro ⟨h1, i, hi, h2⟩
      obtain ⟨x, hx, rfl⟩ := (hany _).1 hi
      exact ⟨x, hx, by simp [h1, h2]⟩
  · intro h
    have h' : (members (l.map Prod.snd).zipIdx cls).any (fun x => place && x.1.isService) = true := h
    obtain ⟨x, -, hx⟩ := List.any_eq_true.1 h'
    simp only [Bool.and_eq_true] at hx
    show List.map _ (members _ cls) = List.map _ (classmates l cls)
    rw [← classInsts_mates, classInsts, List.map_map]
    refine List.map_congr_left ?_
    intro y _
    simp [hx.1]

/-! ### properties -/

omit [DecidableEq ρ] in
theorem fillProps_names {hash : Bytes → Bytes} {ref : Option ρ → BitVec 32} {classID : BitVec 32} {insts : List (Inst ρ)} :
    ∀ {plan : List (Bytes × Kind)} {sh sh' : Shared} {cs : List PropChunk}, fillProps hash ref classID insts plan sh = .ok (cs, sh') →
      cs.map PropChunk.name = plan.map Prod.fst ∧ ∀ c ∈ cs, c.classID = classID := by
  intro plan
  induction plan with
  | nil =>
    intro sh sh' cs h
    simp only [fillProps, Res.ok.injEq, Prod.mk.injEq] at h
    obtain ⟨rfl, rfl⟩ := h
    exact ⟨rfl, by simp⟩
  | cons p ps ih =>
    intro sh sh' cs h
    simp only [fillProps, Res.bind_eq_ok, Res.pure_eq, Res.ok.injEq] at h
    obtain ⟨⟨c, sh1⟩, h1, ⟨cs', sh2⟩, h2, h3⟩ := h
    simp only [Prod.mk.injEq] at h3
    obtain ⟨rfl, rfl⟩ := h3
    obtain ⟨g1, g2⟩ := ih h2
    have hc : c.name = p.1 ∧ c.classID = classID := by
      unfold fillProp at h1
      split at h1
      · simp only [Res.bind_eq_ok, Res.pure_eq, Res.ok.injEq] at h1
        obtain ⟨⟨vs, sh3⟩, -, h1⟩ := h1
        simp only [Prod.mk.injEq] at h1
        obtain ⟨rfl, -⟩ := h1
        exact ⟨rfl, rfl⟩
      · simp only [Res.bind_eq_ok, Res.pure_eq, Res.ok.injEq] at h1
        obtain ⟨vs, -, h1⟩ := h1
        simp only [Prod.mk.injEq] at h1
        obtain ⟨rfl, -⟩ := h1
        exact ⟨rfl, rfl⟩
    refine ⟨by simp [hc.1, g1], ?_⟩
    intro d hd
    rcases List.mem_cons.1 hd with rfl | hd
    · exact hc.2
    · exact g2 d hd

omit [DecidableEq ρ] in
theorem classProps_sorted {it : Iter} {srt : Sorter} {place : Bool} {i : Nat} {insts : List (Inst ρ)}
    {plan : List (Bytes × Kind)} (h : classProps it srt place i insts = .ok plan) :
    (plan.map Prod.fst).Pairwise fun a b => bytesLt a b = true := by
  have hnd := (classProps_ok h).1
  simp only [classProps, Res.bind_eq_ok, Res.pure_eq, Res.ok.injEq] at h
  obtain ⟨ps, -, rfl⟩ := h
  have hsort := srt.sorted _ (it.run [3, i] ps) (strictWeak_bytes (fun c : Bytes × Kind => c.1))
  unfold List.Nodup at hnd
  rw [List.pairwise_map] at hnd ⊢
  refine (hsort.and hnd).imp ?_
  intro a b ⟨h1, h2⟩
  rcases bytesLt_total h2 with h | h
  · exact h
  · rw [h1] at h; cases h

theorem propChunks_ordered {it : Iter} {srt : Sorter} {hash : Bytes → Bytes} {place : Bool} {L : Map ρ (Inst ρ)} :
    ∀ (classes : List InstChunk) (k : Nat) (sh sh' : Shared) (cs : List PropChunk),
    (∀ j c, classes[j]? = some c → c.classID.toNat = k + j) →
    propChunks it srt hash place L k classes sh = .ok (cs, sh') → cs.Pairwise PropBefore ∧ ∀ c ∈ cs, k ≤ c.classID.toNat := by
  intro classes
  induction classes with
  | nil =>
    intro k sh sh' cs _ h
    simp only [propChunks, Res.ok.injEq, Prod.mk.injEq] at h
    obtain ⟨rfl, rfl⟩ := h
    exact ⟨.nil, by simp⟩
  | cons c classes ih =>
    intro k sh sh' cs hid h
    simp only [propChunks, Res.bind_eq_ok, Res.pure_eq, Res.ok.injEq] at h
    obtain ⟨insts, -, plan, h1, ⟨xs, sh1⟩, h2, ⟨ys, sh2⟩, h3, h4⟩ := h
    simp only [Prod.mk.injEq] at h4
    obtain ⟨rfl, rfl⟩ := h4
    obtain ⟨g1, g2⟩ := fillProps_names h2
    have hs := classProps_sorted h1
    have hc : c.classID.toNat = k := by have := hid 0 c rfl; simpa using this
    obtain ⟨k1, k2⟩ := ih (k + 1) sh1 _ ys (by
      intro j d hd
      have := hid (j + 1) d (by simpa using hd)
      omega) h3
    refine ⟨?_, ?_⟩
    · rw [List.pairwise_append]
      refine ⟨?_, k1, ?_⟩
      · rw [← g1, List.pairwise_map] at hs
        refine hs.imp_of_mem ?_
        intro a b ha hb hab
        exact .inr ⟨by rw [g2 a ha, g2 b hb], hab⟩
      · intro a ha b hb
        have := k2 b hb
        rw [← hc] at this
        exact .inl (by rw [g2 a ha]; omega)
    · intro d hd
      rcases List.mem_append.1 hd with hd | hd
      · rw [g2 d hd, hc]; exact Nat.le_refl _
      · have := k2 d hd; omega

omit [DecidableEq ρ] in
/-- The chunk of a property. -/
theorem chunkOk_layout {hash : Bytes → Bytes} {ref : Option ρ → BitVec 32} {place : Bool} {l : Map ρ (Inst ρ)} {cls : Bytes}
    {sh : Shared} {cid : BitVec 32} {p : Bytes × Kind} {c : PropChunk}
    (hw : Written place (valuesOf (classmates l cls) p.1)) (hp : PlanSpec place (valuesOf (classmates l cls) p.1) p.2)
    (hc : ChunkOk hash ref sh cid (classmates l cls) p c) : ValueChunk place l cls c := by
  obtain ⟨-, h2, h3⟩ := hc
  obtain ⟨n, k⟩ := p
  simp only at h2 hw hp
  subst h2
  cases k with
  | plain t =>
    obtain ⟨vs, e1, e2⟩ := h3
    refine ⟨hw, _, e1, e2.length_eq.symm, fun v hv => ⟨hp.2.2 v hv, ?_⟩⟩
    rintro t' o rfl
    have := hp.2.2 _ hv
    exact absurd (by simpa [fromValueType, Value.type] using this.symm) hp.1
  | opt t =>
    obtain ⟨vs, e1, e2⟩ := h3
    have hl := e2.length_eq
    refine ⟨hw, _, e1, ⟨by simp [hl], by simp [hl]⟩, fun v hv => ?_⟩
    obtain ⟨typ, o, rfl, e⟩ := hp v hv
    refine ⟨rfl, ?_⟩
    rintro _ _ ⟨⟩
    exact ⟨_, _, rfl, e⟩

omit [DecidableEq ρ] in
theorem propsOk_all {hash : Bytes → Bytes} {ref : Option ρ → BitVec 32} {place : Bool}
    {insts : List (Inst ρ)} {sh : Shared} : ∀ {names : List Bytes} {k : Nat} {cs : List PropChunk},
    PropsOk hash ref place insts sh k names cs → ∀ x ∈ names.zipIdx k, ∀ n, Written place (valuesOf (classInsts insts x.1) n) →
      ∃ c ∈ cs, c.classID = BitVec.ofNat 32 x.2 ∧ c.name = n := by
  intro names
  induction names with
  | nil => intro k cs _ x hx; cases hx
  | cons cls names ih =>
    intro k cs h x hx n hw
    obtain ⟨plan, xs, ys, rfl, hplan, hxs, hys⟩ := h
    rw [List.zipIdx_cons] at hx
    rcases List.mem_cons.1 hx with rfl | hx
    · obtain ⟨p, hp, rfl⟩ := List.mem_map.1 (hplan.2.2 n hw)
      obtain ⟨c, hc, hcp⟩ := partner_right hxs p hp
      exact ⟨c, List.mem_append_left _ hc, hcp.1, hcp.2.1⟩
    · obtain ⟨c, hc, h1⟩ := ih hys x hx n hw
      exact ⟨c, List.mem_append_right _ hc, h1⟩

/-! ### the file -/

/-- The layout of the model that is made for a tree, how its arrays were filled, and which chunks are to be compressed. -/
theorem codecEncode_parts {it : Iter} {srt : Sorter} {hash : Bytes → Bytes} {place : Bool} {h : Heap ρ} {root : Root ρ}
    {l : Map ρ (Inst ρ)} (ht : Trees h root.instances l) (hn : l.length < 2 ^ 31) {f : FormatModel}
    (hf : codecEncode it srt hash place h root = .ok f) :
    ∃ metas shareds insts props parent, FileLayout place root.metadata h root.instances l f metas shareds insts props parent ∧
      (∃ shared : Shared, SharedOk hash (UsedShared l) shared ∧
        (shareds.flatMap fun c => c.values.map Prod.snd) = shared.map Prod.snd ∧
        ∀ p ∈ props, ∃ c ∈ insts, p.classID = c.classID ∧ ∃ q,
          Written place (valuesOf (classmates l c.className) q.1) ∧ PlanSpec place (valuesOf (classmates l c.className) q.1) q.2 ∧
          ChunkOk hash (refNum l) shared c.classID (classmates l c.className) q p) ∧
      ∃ cs e, f.chunks = cs ++ [⟨e, false⟩] ∧ ∀ c ∈ cs, c.compressed = true := by
  simp only [codecEncode, instList_trees ht, Res.ok_bind, Res.bind_eq_ok, Res.pure_eq, Res.ok.injEq] at hf
  obtain ⟨⟨props, shared⟩, hprops, parent, hparent, hf⟩ := hf
  obtain ⟨names, hnn, hns, hnm, hcl⟩ := classList_eq it srt place (l.map Prod.snd)
  have hNle : names.length ≤ l.length := by
    have hsub : names ⊆ l.map (fun x => x.2.className) := by
      intro c hc
      obtain ⟨i, hi, rfl⟩ := (hnm c).1 hc
      obtain ⟨x, hx, rfl⟩ := List.mem_map.1 hi
      exact List.mem_map.2 ⟨x, hx, rfl⟩
    have := List.Nodup.length_le_of_subset hnn hsub
    simpa using this
  have hcl' : classList it srt place (l.map Prod.snd) = names.zipIdx.map (clsChunk place (l.map Prod.snd)) := hcl
  have hat : ∀ (k : Nat) (c : InstChunk), (names.zipIdx.map (clsChunk place (l.map Prod.snd)))[k]? = some c →
      ∃ cls, names[k]? = some cls ∧ k < names.length ∧ c = clsChunk place (l.map Prod.snd) (cls, k) := by
    intro k c hc
    rw [List.getElem?_map, List.getElem?_zipIdx] at hc
    cases hk : names[k]? with
    | none => rw [hk] at hc; cases hc
    | some cls =>
      rw [hk] at hc
      simp only [Option.map_some, Option.some.injEq, Nat.zero_add] at hc
      exact ⟨cls, rfl, (List.getElem?_eq_some_iff.1 hk).1, hc.symm⟩
  have hcls : ∀ (k : Nat) (c : InstChunk), (names.zipIdx.map (clsChunk place (l.map Prod.snd)))[k]? = some c →
      ClassChunk place l k c := by
    intro k c hc
    obtain ⟨cls, h1, h2, rfl⟩ := hat k c hc
    exact clsChunk_layout place l hn (by omega) ((hnm cls).1 (List.mem_of_getElem? h1))
  have hord := propChunks_ordered _ 0 [] shared props (by
    intro j c hc
    rw [hcl'] at hc
    have := (hcls j c hc).id
    omega) hprops
  rw [hcl] at hprops
  obtain ⟨-, hsh, hpo⟩ := propChunks_ok (used := UsedShared l) hn
    (fun x hx n s hs => ⟨x, hx, n, hs⟩) names 0 [] shared props ⟨by simp, by simp⟩ hprops
  rw [hcl'] at hf
  have hin : ∀ x ∈ names.zipIdx, clsChunk place (l.map Prod.snd) x ∈ names.zipIdx.map (clsChunk place (l.map Prod.snd)) :=
    fun x hx => List.mem_map_of_mem hx
  refine ⟨if root.metadata.length = 0 then [] else [srt.run metaLess (it.run [4] root.metadata)],
    if shared.length = 0 then [] else [⟨0, shared.map fun e => (List.replicate 16 0#8, e.2)⟩],
    names.zipIdx.map (clsChunk place (l.map Prod.snd)), props, parent, ?_⟩
  subst hf
  refine ⟨⟨?_, rfl, ?_, ?_, rfl, ?_, ?_, hcls, ?_, ?_, ?_, ?_, hord.1, parentLinks_layout ht hn hparent⟩, ?_, ?_⟩
  · simp only [List.map_append, List.append_assoc, List.map_map]
    congr 1
    · split <;> rfl
    · congr 1
      split <;> rfl
  · simp only [List.length_map, List.length_zipIdx]
    exact toNat_ofNat_lt (by omega)
  · exact toNat_ofNat_lt (by omega)
  · by_cases h0 : root.metadata = []
    · simp [h0]
    · rw [if_neg h0, if_neg (by simpa using h0)]
      exact ⟨_, rfl, (srt.perm _ _).trans (it.perm _ _)⟩
  · by_cases h0 : shared = []
    · left; simp [h0]
    · right
      rw [if_neg (by simpa using h0)]
      refine ⟨_, rfl, by simpa using h0, ?_, ?_⟩
      · rw [List.map_map]
        have h2 := hsh.2
        unfold List.Nodup at h2 ⊢
        rw [List.pairwise_map] at h2 ⊢
        refine h2.imp_of_mem ?_
        intro a b ha hb hab e
        refine hab ?_
        rw [(hsh.1 a ha).1, (hsh.1 b hb).1]
        exact congrArg hash e
      · intro x hx
        obtain ⟨y, hy, rfl⟩ := List.mem_map.1 hx
        exact ⟨rfl, (hsh.1 y hy).2⟩
  · intro x hx
    have := (hnm x.2.className).2 ⟨x.2, List.mem_map_of_mem hx, rfl⟩
    obtain ⟨k, hk⟩ := List.mem_iff_getElem?.1 this
    exact ⟨_, hin (x.2.className, k) (List.mk_mem_zipIdx_iff_getElem?.2 hk), rfl⟩
  · rw [List.pairwise_map]
    have : (names.zipIdx.map Prod.fst).Pairwise fun a b => bytesLt a b = true := by
      rw [List.zipIdx_map_fst]; exact hns
    rw [List.pairwise_map] at this
    exact this
  · intro p hp
    obtain ⟨x, hx, q, q1, q2, q3⟩ := propsOk_mem hpo p hp
    rw [classInsts_mates] at q1 q2 q3
    exact ⟨_, hin x hx, q3.1, chunkOk_layout q1 q2 q3⟩
  · intro c hc n hw
    obtain ⟨x, hx, rfl⟩ := List.mem_map.1 hc
    obtain ⟨p, hp, h1, h2⟩ := propsOk_all hpo x hx n (by rw [classInsts_mates]; exact hw)
    exact ⟨p, hp, h1, h2⟩
  · refine ⟨shared, hsh, ?_, ?_⟩
    · by_cases h0 : shared = []
      · simp [h0]
      · rw [if_neg (by simpa using h0)]
        simp only [List.flatMap_cons, List.flatMap_nil, List.append_nil, List.map_map]
        rfl
    · intro p hp
      obtain ⟨x, hx, q, q1, q2, q3⟩ := propsOk_mem hpo p hp
      rw [classInsts_mates] at q1 q2 q3
      exact ⟨_, hin x hx, q3.1, q, q1, q2, q3⟩
  · have e : ∀ (xs : List Chunk) (a b : Chunk), xs ++ [a, b] = (xs ++ [a]) ++ [b] := by simp
    refine ⟨_, _, e _ _ _, ?_⟩
    intro c hc
    simp only [List.mem_append] at hc
    rcases hc with (((hc | hc) | hc) | hc) | hc
    · split at hc
      · cases hc
      · rw [List.mem_singleton.1 hc]
    · split at hc
      · cases hc
      · rw [List.mem_singleton.1 hc]
    · obtain ⟨y, -, rfl⟩ := List.mem_map.1 hc; rfl
    · obtain ⟨y, -, rfl⟩ := List.mem_map.1 hc; rfl
    · rw [List.mem_singleton.1 hc]

/-- The layout of the model that is made for a tree. -/
theorem codecEncode_layout {it : Iter} {srt : Sorter} {hash : Bytes → Bytes} {place : Bool} {h : Heap ρ} {root : Root ρ}
    {l : Map ρ (Inst ρ)} (ht : Trees h root.instances l) (hn : l.length < 2 ^ 31) {f : FormatModel}
    (hf : codecEncode it srt hash place h root = .ok f) :
    ∃ metas shareds insts props parent, FileLayout place root.metadata h root.instances l f metas shareds insts props parent := by
  obtain ⟨metas, shareds, insts, props, parent, hl, -⟩ := codecEncode_parts ht hn hf
  exact ⟨metas, shareds, insts, props, parent, hl⟩

/-! ### reading it back -/

theorem classChunk_canon {place : Bool} {l : Map ρ (Inst ρ)} {k : Nat} {c : InstChunk} (h : ClassChunk place l k c) :
    ClassChunk place l k c.canon :=
  ⟨h.id, h.occurs, h.ids, h.services, fun hs => by
    have hs' : c.isService = true := hs
    show (if c.isService then c.getService else []) = _
    rw [if_pos hs']; exact h.flags hs'⟩

theorem canon_type (a : Arr) : a.canon.type = a.type := by
  cases a <;> rfl

theorem elements_canon {a : Arr} {n : Nat} (h : Elements a n) : Elements a.canon n := by
  match a, h with
  | .plain _ vs, h => simpa [Elements, Arr.canon] using h
  | .optional (.plain _ vs) present, h => simpa [Elements, Arr.canon] using h

omit [DecidableEq ρ] in
theorem valueChunk_canon {place : Bool} {l : Map ρ (Inst ρ)} {cls : Bytes} {p : PropChunk} (h : ValueChunk place l cls p) :
    ValueChunk place l cls { p with props := p.props.map Arr.canon } := by
  obtain ⟨h1, a, h2, h3, h4⟩ := h
  refine ⟨h1, a.canon, by simp [h2], elements_canon h3, fun v hv => ?_⟩
  obtain ⟨g1, g2⟩ := h4 v hv
  refine ⟨by rw [canon_type]; exact g1, fun t o e => ?_⟩
  obtain ⟨b, present, rfl, e2⟩ := g2 t o e
  exact ⟨b.canon, present, rfl, by rw [canon_type]; exact e2⟩

/-- Reading the chunks back does not change the layout. -/
theorem layout_back {place : Bool} {entries : Map Bytes Bytes} {h : Heap ρ} {ps : List ρ} {l : Map ρ (Inst ρ)}
    {f : FormatModel} {metas : List (List (Bytes × Bytes))} {shareds : List SharedChunk} {insts : List InstChunk}
    {props : List PropChunk} {parent : ParentChunk} (hl : FileLayout place entries h ps l f metas shareds insts props parent)
    (u : Bool) (g : Map (BitVec 32) (Nat × InstChunk)) :
    FileLayout place entries h ps l ⟨0, f.classCount, f.instanceCount, f.chunks.map (Chunk.back u), f.trailing, g⟩ metas shareds
      (insts.map InstChunk.canon) (props.map fun p => { p with props := p.props.map Arr.canon }) parent := by
  refine ⟨?_, rfl, by simpa using hl.classCount, hl.instanceCount, hl.trailing, hl.metadata, hl.shared, ?_, ?_, ?_, ?_, ?_, ?_,
    hl.parents⟩
  · have e : (f.chunks.map (Chunk.back u)).map Chunk.body = (f.chunks.map Chunk.body).map Body.canon := by
      rw [List.map_map, List.map_map]; rfl
    simp only [e, hl.chunks, List.map_append, List.map_map]
    rfl
  · intro k c hc
    rw [List.getElem?_map] at hc
    obtain ⟨d, hd, rfl⟩ := Option.map_eq_some_iff.1 hc
    exact classChunk_canon (hl.classes k d hd)
  · intro x hx
    obtain ⟨c, hc, e⟩ := hl.allClasses x hx
    exact ⟨_, List.mem_map_of_mem hc, e⟩
  · rw [List.pairwise_map]; exact hl.sorted
  · intro p hp
    obtain ⟨q, hq, rfl⟩ := List.mem_map.1 hp
    obtain ⟨c, hc, e1, e2⟩ := hl.values q hq
    exact ⟨_, List.mem_map_of_mem hc, e1, valueChunk_canon e2⟩
  · intro c hc n hw
    obtain ⟨d, hd, rfl⟩ := List.mem_map.1 hc
    obtain ⟨p, hp, e1, e2⟩ := hl.allValues d hd n hw
    exact ⟨_, List.mem_map_of_mem hp, e1, e2⟩
  · rw [List.pairwise_map]; exact hl.ordered

/-! ### consequences -/

omit [DecidableEq ρ] in
theorem postOrder_mem {h : Heap ρ} [DecidableEq ρ] {ps : List ρ} {l : Map ρ (Inst ρ)} (f : Forest h ps l) :
    ∀ {par : Option ρ} {links : List (ρ × Option ρ)}, PostOrder h par ps links →
      (links.map Prod.fst).Perm (l.map Prod.fst) ∧
      ∀ (a b : List (ρ × Option ρ)) (x : ρ × Option ρ), links = a ++ x :: b → ∀ q, x.2 = some q →
        par = some q ∨ q ∈ b.map Prod.fst := by
  induction f with
  | nil =>
    intro par links h
    cases h
    refine ⟨.refl _, fun a b x e => ?_⟩
    cases a <;> cases e
  | @cons p ps inst below rest hp f1 f2 ih1 ih2 =>
    intro par links h
    cases h with
    | @cons _ _ _ inst' la lb hp' h1 h2 =>
      rw [hp] at hp'; cases hp'
      obtain ⟨a1, a2⟩ := ih1 h1
      obtain ⟨b1, b2⟩ := ih2 h2
      refine ⟨?_, ?_⟩
      · simp only [List.map_append, List.map_cons]
        exact (List.perm_middle).trans (.cons _ (a1.append b1))
      · intro a b x e q hq
        rcases List.append_eq_append_iff.1 e with ⟨c, rfl, e2⟩ | ⟨c, rfl, e2⟩
        · cases c with
          | nil =>
            simp only [List.nil_append, List.cons.injEq] at e2
            obtain ⟨rfl, rfl⟩ := e2
            exact .inl hq
          | cons y c =>
            simp only [List.cons_append, List.cons.injEq] at e2
            obtain ⟨rfl, rfl⟩ := e2
            exact b2 c b x rfl q hq
        · cases c with
          | nil =>
            simp only [List.nil_append, List.cons.injEq] at e2
            obtain ⟨rfl, rfl⟩ := e2
            exact .inl hq
          | cons y c =>
            simp only [List.cons_append, List.cons.injEq] at e2
            obtain ⟨rfl, rfl⟩ := e2
            rcases a2 a c x rfl q hq with e | e
            · cases e; right; simp
            · right; simp [e]

end Rbxl

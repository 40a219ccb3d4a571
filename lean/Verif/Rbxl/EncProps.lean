import Verif.Rbxl.EncValues
import Verif.Rbxl.EncClass
/-!
# The property chunks of `robloxCodec.Encode`
-/
namespace Rbxl
open Go Rbxfile Spec

variable {ρ : Type} [DecidableEq ρ]

/-! ### names -/

theorem addNames_mem : ∀ (ks acc : List Bytes) (n : Bytes),
    n ∈ addNames acc ks ↔ n ∈ acc ∨ n ∈ ks := by
  intro ks
  induction ks with
  | nil => intro acc n; simp [addNames]
  | cons k ks ih =>
    intro acc n
    have := ih (if k ∈ acc then acc else acc ++ [k]) n
    simp only [addNames, List.foldl_cons] at this ⊢
    rw [this]
    by_cases hk : k ∈ acc
    · simp only [if_pos hk, List.mem_cons]
      constructor
      · rintro (h | h)
        · exact .inl h
        · exact .inr (.inr h)
      · rintro (h | rfl | h)
        · exact .inl h
        · exact .inl hk
        · exact .inr h
    · simp [if_neg hk, or_assoc]

theorem addNames_nodup : ∀ (ks acc : List Bytes), acc.Nodup → (addNames acc ks).Nodup := by
  intro ks
  induction ks with
  | nil => intro acc h; exact h
  | cons k ks ih =>
    intro acc h
    simp only [addNames, List.foldl_cons]
    apply ih
    split
    · exact h
    · rename_i hk
      rw [List.nodup_append]
      refine ⟨h, by simp, ?_⟩
      intro a ha b hb e
      simp only [List.mem_singleton] at hb
      subst hb; subst e
      exact hk ha

omit [DecidableEq ρ] in
theorem propNames_aux (it : Iter) (cls : Nat) : ∀ (xs : List (Inst ρ × Nat)) (acc : List Bytes),
    acc.Nodup →
    (xs.foldl (fun acc x => addNames acc (it.run [1, cls, x.2] x.1.properties.keys)) acc).Nodup ∧
    ∀ n, n ∈ xs.foldl (fun acc x => addNames acc (it.run [1, cls, x.2] x.1.properties.keys)) acc ↔
      n ∈ acc ∨ ∃ x ∈ xs, n ∈ x.1.properties.keys := by
  intro xs
  induction xs with
  | nil => intro acc h; simpa using h
  | cons x xs ih =>
    intro acc h
    obtain ⟨h1, h2⟩ := ih _ (addNames_nodup (it.run [1, cls, x.2] x.1.properties.keys) acc h)
    refine ⟨h1, ?_⟩
    intro n
    simp only [List.foldl_cons]
    rw [h2, addNames_mem, (it.perm [1, cls, x.2] x.1.properties.keys).mem_iff]
    simp only [List.mem_cons, exists_eq_or_imp, or_assoc]

omit [DecidableEq ρ] in
theorem valuesOf_ne_nil {insts : List (Inst ρ)} {n : Bytes} :
    valuesOf insts n ≠ [] ↔ ∃ i ∈ insts, n ∈ i.properties.keys := by
  constructor
  · intro h
    obtain ⟨v, hv⟩ := List.exists_mem_of_ne_nil _ h
    obtain ⟨i, hi, hi2⟩ := List.mem_filterMap.1 hv
    exact ⟨i, hi, Map.get?_isSome.1 (by rw [hi2]; rfl)⟩
  · rintro ⟨i, hi, hk⟩ h0
    cases hg : i.properties.get? n with
    | none =>
      have := Map.get?_eq_none.1 hg
      exact this hk
    | some v =>
      have : v ∈ valuesOf insts n := List.mem_filterMap.2 ⟨i, hi, hg⟩
      rw [h0] at this; cases this

omit [DecidableEq ρ] in
theorem propNames_ok (it : Iter) (cls : Nat) (insts : List (Inst ρ)) :
    (propNames it cls insts).Nodup ∧
    ∀ n, n ∈ propNames it cls insts ↔ valuesOf insts n ≠ [] := by
  obtain ⟨h1, h2⟩ := propNames_aux it cls insts.zipIdx [] List.nodup_nil
  refine ⟨h1, ?_⟩
  intro n
  rw [valuesOf_ne_nil]
  refine (h2 n).trans ?_
  simp only [List.not_mem_nil, false_or]
  constructor
  · rintro ⟨x, hx, hn⟩
    exact ⟨x.1, List.fst_mem_of_mem_zipIdx hx, hn⟩
  · rintro ⟨i, hi, hn⟩
    obtain ⟨k, hk⟩ := List.mem_iff_getElem?.1 hi
    exact ⟨(i, k), List.mk_mem_zipIdx_iff_getElem?.2 hk, hn⟩

/-! ### plans -/

omit [DecidableEq ρ] in
theorem planAll_ok {place : Bool} {insts : List (Inst ρ)} : ∀ {ns : List Bytes}
    {ps : List (Bytes × Kind)}, planAll place insts ns = .ok ps →
    (ps.map Prod.fst).Sublist ns ∧ (∀ n ∈ ns, ∃ r, planProp place insts n = .ok r) ∧
    ∀ x, x ∈ ps ↔ x.1 ∈ ns ∧ planProp place insts x.1 = .ok (some x.2) := by
  intro ns
  induction ns with
  | nil => intro ps h; simp only [planAll, Res.ok.injEq] at h; subst h; simp
  | cons n ns ih =>
    intro ps h
    simp only [planAll, Res.bind_eq_ok, Res.pure_eq, Res.ok.injEq] at h
    obtain ⟨k, h1, ks, h2, rfl⟩ := h
    obtain ⟨g1, g2, g3⟩ := ih h2
    refine ⟨?_, ?_, ?_⟩
    · cases k with
      | none => exact g1.cons _
      | some k => exact g1.cons_cons _
    · intro m hm
      rcases List.mem_cons.1 hm with rfl | hm
      · exact ⟨k, h1⟩
      · exact g2 m hm
    · rintro ⟨m, kd⟩
      cases k with
      | none =>
        simp only [g3, List.mem_cons]
        constructor
        · rintro ⟨a, b⟩; exact ⟨.inr a, b⟩
        · rintro ⟨rfl | a, b⟩
          · rw [h1] at b; cases b
          · exact ⟨a, b⟩
      | some k =>
        simp only [List.mem_cons, g3, Prod.mk.injEq]
        constructor
        · rintro (⟨rfl, rfl⟩ | ⟨a, b⟩)
          · exact ⟨.inl rfl, h1⟩
          · exact ⟨.inr a, b⟩
        · rintro ⟨rfl | a, b⟩
          · rw [h1] at b; cases b; exact .inl ⟨rfl, rfl⟩
          · exact .inr ⟨a, b⟩

/-- What is known of the plan of a class. -/
def PlanOk (place : Bool) (insts : List (Inst ρ)) (plan : List (Bytes × Kind)) : Prop :=
  (plan.map Prod.fst).Nodup ∧
  (∀ x ∈ plan, Written place (valuesOf insts x.1) ∧ PlanSpec place (valuesOf insts x.1) x.2) ∧
  (∀ n, Written place (valuesOf insts n) → n ∈ plan.map Prod.fst)

omit [DecidableEq ρ] in
theorem classProps_ok {it : Iter} {srt : Sorter} {place : Bool} {i : Nat} {insts : List (Inst ρ)}
    {plan : List (Bytes × Kind)} (h : classProps it srt place i insts = .ok plan) :
    PlanOk place insts plan := by
  simp only [classProps, Res.bind_eq_ok, Res.pure_eq, Res.ok.injEq] at h
  obtain ⟨ps, h1, h2⟩ := h
  have hp : plan.Perm ps := by
    rw [← h2]; exact (srt.perm _ _).trans (it.perm _ _)
  clear h2
  obtain ⟨g1, g2, g3⟩ := planAll_ok h1
  obtain ⟨n1, n2⟩ := propNames_ok it i insts
  have hit := it.perm [2, i] (propNames it i insts)
  refine ⟨?_, ?_, ?_⟩
  · rw [(hp.map Prod.fst).nodup_iff]
    exact (hit.nodup_iff.2 n1).sublist g1
  · intro x hx
    have hx := (g3 x).1 (hp.mem_iff.1 hx)
    rcases planProp_ok hx.2 with ⟨e, _⟩ | ⟨k, e, w1, w2⟩
    · cases e
    · cases e; exact ⟨w1, w2⟩
  · intro n hw
    have hn : n ∈ it.run [2, i] (propNames it i insts) := hit.mem_iff.2 ((n2 n).2 hw.1)
    obtain ⟨r, hr⟩ := g2 n hn
    rcases planProp_ok hr with ⟨_, e⟩ | ⟨k, rfl, _⟩
    · exact absurd hw e
    · exact List.mem_map.2 ⟨(n, k), hp.mem_iff.2 ((g3 (n, k)).2 ⟨hn, hr⟩), rfl⟩

/-! ### chunks -/

/-- What is known of the chunk of a property. -/
def ChunkOk (hash : Bytes → Bytes) (ref : Option ρ → BitVec 32) (sh : Shared) (classID : BitVec 32)
    (insts : List (Inst ρ)) (p : Bytes × Kind) (c : PropChunk) : Prop :=
  c.classID = classID ∧ c.name = p.1 ∧
  match p.2 with
  | .plain t => ∃ vs, c.props = some (.plain t vs) ∧
      List.Forall₂ (fun i b => Enc hash ref t sh (i.properties.get? p.1) b) insts vs
  | .opt t => ∃ vs : List (Val × Bool),
      c.props = some (.optional (.plain t (vs.map Prod.fst)) (vs.map Prod.snd)) ∧
      List.Forall₂ (fun i x => EncOpt t (i.properties.get? p.1) x) insts vs

omit [DecidableEq ρ] in
theorem ChunkOk.mono {hash : Bytes → Bytes} {ref : Option ρ → BitVec 32} {sh sh' : Shared}
    {classID : BitVec 32} {insts : List (Inst ρ)} {p : Bytes × Kind} {c : PropChunk}
    (hp : sh <+: sh') (h : ChunkOk hash ref sh classID insts p c) :
    ChunkOk hash ref sh' classID insts p c := by
  obtain ⟨h1, h2, h3⟩ := h
  refine ⟨h1, h2, ?_⟩
  split at h3
  · obtain ⟨vs, g1, g2⟩ := h3
    exact ⟨vs, g1, g2.imp fun _ _ h => h.mono hp⟩
  · exact h3

omit [DecidableEq ρ] in
theorem fillProps_ok {hash : Bytes → Bytes} {ref : Option ρ → BitVec 32} {classID : BitVec 32}
    {used : Bytes → Prop} {place : Bool} {insts : List (Inst ρ)}
    (hu : ∀ i ∈ insts, ∀ n s, i.properties.get? n = some (.sharedString s) → used s) :
    ∀ {plan : List (Bytes × Kind)} {sh sh' : Shared} {cs : List PropChunk},
    (∀ x ∈ plan, PlanSpec place (valuesOf insts x.1) x.2) → SharedOk hash used sh →
    fillProps hash ref classID insts plan sh = .ok (cs, sh') →
    sh <+: sh' ∧ SharedOk hash used sh' ∧
      List.Forall₂ (ChunkOk hash ref sh' classID insts) plan cs := by
  intro plan
  induction plan with
  | nil =>
    intro sh sh' cs _ hs h
    simp only [fillProps, Res.ok.injEq, Prod.mk.injEq] at h
    obtain ⟨rfl, rfl⟩ := h
    exact ⟨List.prefix_rfl, hs, .nil⟩
  | cons p ps ih =>
    intro sh sh' cs hpl hs h
    simp only [fillProps, Res.bind_eq_ok, Res.pure_eq, Res.ok.injEq] at h
    obtain ⟨⟨c, sh1⟩, h1, ⟨cs1, sh2⟩, h2, h3⟩ := h
    simp only [Prod.mk.injEq] at h3
    obtain ⟨rfl, rfl⟩ := h3
    have hspec := hpl p (by simp)
    have hfirst : sh <+: sh1 ∧ SharedOk hash used sh1 ∧
        ChunkOk hash ref sh1 classID insts p c := by
      obtain ⟨n, k⟩ := p
      cases k with
      | plain t =>
        simp only [fillProp, Res.bind_eq_ok, Res.pure_eq, Res.ok.injEq] at h1
        obtain ⟨⟨vs, sh0⟩, e1, e2⟩ := h1
        simp only [Prod.mk.injEq] at e2
        obtain ⟨rfl, rfl⟩ := e2
        obtain ⟨a1, a2, a3⟩ := hspec
        obtain ⟨g1, g2, g3⟩ := fillPlain_ok (used := used) a1 a3 (by
          intro s hs
          obtain ⟨i, hi, hi2⟩ := List.mem_filterMap.1 hs
          exact hu i hi n s hi2) hs e1
        exact ⟨g1, g2, rfl, rfl, vs, rfl, g3⟩
      | opt t =>
        simp only [fillProp, Res.bind_eq_ok, Res.pure_eq, Res.ok.injEq, Prod.mk.injEq] at h1
        obtain ⟨vs, e1, rfl, rfl⟩ := h1
        exact ⟨List.prefix_rfl, hs, rfl, rfl, vs, rfl, fillOpts_ok e1⟩
    obtain ⟨g1, g2, g3⟩ := hfirst
    obtain ⟨k1, k2, k3⟩ := ih (fun x hx => hpl x (List.mem_cons_of_mem _ hx)) g2 h2
    exact ⟨g1.trans k1, k2, .cons (g3.mono k1) k3⟩

/-- The instances of a class. -/
def classInsts (insts : List (Inst ρ)) (cls : Bytes) : List (Inst ρ) :=
  (members insts.zipIdx cls).map Prod.fst

omit [DecidableEq ρ] in
theorem instsOf_members {insts : List (Inst ρ)} (hn : insts.length < 2 ^ 31) :
    ∀ (ys : List (Inst ρ × Nat)), (∀ y ∈ ys, insts[y.2]? = some y.1) →
    instsOf insts (ys.map fun y => BitVec.ofNat 32 y.2) = .ok (ys.map Prod.fst) := by
  intro ys
  induction ys with
  | nil => intro _; rfl
  | cons y ys ih =>
    intro h
    have hy := h y (by simp)
    have hlt := (List.getElem?_eq_some_iff.1 hy).1
    rw [List.map_cons, instsOf]
    have hm : (BitVec.ofNat 32 y.2).msb = false := by
      rw [BitVec.msb_eq_decide, decide_eq_false_iff_not]
      simp only [BitVec.toNat_ofNat]; omega
    simp only [hm, Bool.false_eq_true, if_false, toNat_ofNat_lt (show y.2 < 2 ^ 31 by omega), hy,
      ih (fun z hz => h z (List.mem_cons_of_mem _ hz)), Res.ok_bind, Res.pure_eq, List.map_cons]

/-- What is known of the property chunks of all classes: those of a class follow its plan. -/
def PropsOk (hash : Bytes → Bytes) (ref : Option ρ → BitVec 32) (place : Bool)
    (insts : List (Inst ρ)) (sh : Shared) : Nat → List Bytes → List PropChunk → Prop
  | _, [], cs => cs = []
  | k, cls :: names, cs => ∃ plan xs ys, cs = xs ++ ys ∧
      PlanOk place (classInsts insts cls) plan ∧
      List.Forall₂ (ChunkOk hash ref sh (BitVec.ofNat 32 k) (classInsts insts cls)) plan xs ∧
      PropsOk hash ref place insts sh (k + 1) names ys

theorem propChunks_ok {it : Iter} {srt : Sorter} {hash : Bytes → Bytes} {place : Bool}
    {L : Map ρ (Inst ρ)} {used : Bytes → Prop} (hn : L.length < 2 ^ 31)
    (hu : ∀ x ∈ L, ∀ n s, x.2.properties.get? n = some (.sharedString s) → used s) :
    ∀ (names : List Bytes) (k : Nat) (sh sh' : Shared) (cs : List PropChunk),
    SharedOk hash used sh →
    propChunks it srt hash place L k ((names.zipIdx k).map fun c =>
        { chunkOf place c.1 (members (L.map Prod.snd).zipIdx c.1) with
          classID := BitVec.ofNat 32 c.2 }) sh = .ok (cs, sh') →
    sh <+: sh' ∧ SharedOk hash used sh' ∧
      PropsOk hash (refNum L) place (L.map Prod.snd) sh' k names cs := by
  intro names
  induction names with
  | nil =>
    intro k sh sh' cs hs h
    simp only [List.zipIdx_nil, List.map_nil, propChunks, Res.ok.injEq, Prod.mk.injEq] at h
    obtain ⟨rfl, rfl⟩ := h
    exact ⟨List.prefix_rfl, hs, rfl⟩
  | cons cls names ih =>
    intro k sh sh' cs hs h
    rw [List.zipIdx_cons, List.map_cons] at h
    simp only [propChunks, Res.bind_eq_ok, Res.pure_eq, Res.ok.injEq] at h
    obtain ⟨insts, h0, plan, h1, ⟨xs, sh1⟩, h2, ⟨ys, sh2⟩, h3, h4⟩ := h
    simp only [Prod.mk.injEq] at h4
    obtain ⟨rfl, rfl⟩ := h4
    have hinsts : insts = classInsts (L.map Prod.snd) cls := by
      have := instsOf_members (insts := L.map Prod.snd) (by simpa using hn)
        (members (L.map Prod.snd).zipIdx cls) (fun y hy => (mem_members.1 hy).1)
      have h0' : instsOf (L.map Prod.snd) ((members (L.map Prod.snd).zipIdx cls).map
        fun y => BitVec.ofNat 32 y.2) = .ok insts := h0
      rw [this] at h0'
      cases h0'
      rfl
    subst hinsts
    have hplan := classProps_ok h1
    have hmem : ∀ i ∈ classInsts (L.map Prod.snd) cls, ∃ x ∈ L, x.2 = i := by
      intro i hi
      obtain ⟨y, hy, rfl⟩ := List.mem_map.1 hi
      have := (mem_members.1 hy).1
      have := List.mem_iff_getElem?.2 ⟨y.2, this⟩
      obtain ⟨x, hx, hx2⟩ := List.mem_map.1 this
      exact ⟨x, hx, hx2⟩
    obtain ⟨g1, g2, g3⟩ := fillProps_ok (used := used) (place := place) (by
      intro i hi n s hns
      obtain ⟨x, hx, rfl⟩ := hmem i hi
      exact hu x hx n s hns) (fun x hx => (hplan.2.1 x hx).2) hs h2
    obtain ⟨k1, k2, k3⟩ := ih (k + 1) sh1 _ ys g2 h3
    exact ⟨g1.trans k1, k2, plan, xs, ys, rfl, hplan, g3.imp fun _ _ h => h.mono k1, k3⟩

end Rbxl

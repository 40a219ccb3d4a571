import Verif.Rbxl.EncMain
/-!
# `robloxCodec.Encode` does not depend on the iteration order of maps, except for the metadata

Also how the result for a model differs from that for a place.
-/
namespace Rbxl
open Go Rbxfile Spec

variable {ρ : Type} [DecidableEq ρ]

omit [DecidableEq ρ] in
theorem planRest_noErr (t : TypeID) (k : Kind) : ∀ (vs : List (Value ρ)) (e : Err),
    planRest t k vs ≠ .err e := by
  intro vs
  induction vs with
  | nil => intro e h; cases h
  | cons v vs ih =>
    intro e h
    unfold planRest at h
    split at h
    · cases h
    · split at h
      · split at h
        · cases h
        · exact ih e h
      · exact ih e h

omit [DecidableEq ρ] in
theorem planProp_noErr (place : Bool) (insts : List (Inst ρ)) (n : Bytes) (e : Err) :
    planProp place insts n ≠ .err e := by
  intro h
  unfold planProp at h
  repeat' split at h
  all_goals first | cases h | exact planRest_noErr _ _ _ _ h

omit [DecidableEq ρ] in
theorem planAll_noErr (place : Bool) (insts : List (Inst ρ)) : ∀ (ns : List Bytes) (e : Err),
    planAll place insts ns ≠ .err e := by
  intro ns
  induction ns with
  | nil => intro e h; cases h
  | cons n ns ih =>
    intro e h
    rw [planAll] at h
    rcases h1 : planProp place insts n with r | e' | _
    · rw [h1] at h
      rcases h2 : planAll place insts ns with r' | e' | _
      · rw [h2] at h; cases h
      · exact ih e' h2
      · rw [h2] at h; cases h
    · exact planProp_noErr _ _ _ _ h1
    · rw [h1] at h; cases h

omit [DecidableEq ρ] in
theorem planAll_isOk (place : Bool) (insts : List (Inst ρ)) (ns : List Bytes) :
    (planAll place insts ns).isOk ↔ ∀ n ∈ ns, (planProp place insts n).isOk := by
  induction ns with
  | nil => simp [planAll]
  | cons n ns ih =>
    rw [planAll, List.forall_mem_cons, ← ih]
    rcases h1 : planProp place insts n with r | e' | _
    · rcases h2 : planAll place insts ns with r' | e' | _
      · simp only [Res.ok_bind, Res.pure_eq, Res.isOk_ok, true_and]
      · exact absurd h2 (planAll_noErr _ _ _ _)
      · simp
    · exact absurd h1 (planProp_noErr _ _ _ _)
    · simp

omit [DecidableEq ρ] in
theorem planAll_mem {place : Bool} {insts : List (Inst ρ)} : ∀ {ns : List Bytes}
    {ps : List (Bytes × Kind)}, planAll place insts ns = .ok ps →
    ∀ n k, (n, k) ∈ ps ↔ n ∈ ns ∧ planProp place insts n = .ok (some k) := by
  intro ns
  induction ns with
  | nil => intro ps h n k; cases h; simp
  | cons m ns ih =>
    intro ps h n k
    rw [planAll] at h
    rcases h1 : planProp place insts m with r | e' | _
    · rw [h1] at h
      rcases h2 : planAll place insts ns with r' | e' | _
      · rw [h2] at h
        simp only [Res.ok_bind, Res.pure_eq, Res.ok.injEq] at h
        subst h
        have := ih h2 n k
        cases r with
        | none =>
          simp only [this, List.mem_cons]
          constructor
          · rintro ⟨a, b⟩; exact ⟨.inr a, b⟩
          · rintro ⟨rfl | a, b⟩
            · rw [h1] at b; cases b
            · exact ⟨a, b⟩
        | some k' =>
          simp only [List.mem_cons, this, Prod.mk.injEq]
          constructor
          · rintro (⟨rfl, rfl⟩ | ⟨a, b⟩)
            · exact ⟨.inl rfl, h1⟩
            · exact ⟨.inr a, b⟩
          · rintro ⟨rfl | a, b⟩
            · rw [h1] at b; cases b; exact .inl ⟨rfl, rfl⟩
            · exact .inr ⟨a, b⟩
      · rw [h2] at h; cases h
      · rw [h2] at h; cases h
    · rw [h1] at h; cases h
    · rw [h1] at h; cases h

omit [DecidableEq ρ] in
/-- What `classProps` computes, whatever the order. -/
theorem classProps_cases (it : Iter) (srt : Sorter) (place : Bool) (i : Nat)
    (insts : List (Inst ρ)) :
    ((∃ n, valuesOf insts n ≠ [] ∧ ¬ (planProp place insts n).isOk) ∧
      classProps it srt place i insts = .panic) ∨
    ((∀ n, valuesOf insts n ≠ [] → (planProp place insts n).isOk) ∧
      ∃ plan, classProps it srt place i insts = .ok plan ∧
        plan.Pairwise (fun a b => bytesLt b.1 a.1 = false) ∧ (plan.map Prod.fst).Nodup ∧
        ∀ n k, (n, k) ∈ plan ↔ valuesOf insts n ≠ [] ∧ planProp place insts n = .ok (some k)) := by
  have hperm := it.perm [2, i] (propNames it i insts)
  obtain ⟨hnd, hmem⟩ := propNames_ok it i insts
  have hiff : ∀ n, n ∈ it.run [2, i] (propNames it i insts) ↔ valuesOf insts n ≠ [] :=
    fun n => hperm.mem_iff.trans (hmem n)
  have hisok := planAll_isOk place insts (it.run [2, i] (propNames it i insts))
  rcases h : planAll place insts (it.run [2, i] (propNames it i insts)) with ps | e | _
  · refine .inr ⟨?_, _, by simp only [classProps, h, Res.ok_bind, Res.pure_eq]; rfl, ?_, ?_, ?_⟩
    · intro n hn
      exact hisok.1 (by rw [h]; trivial) n ((hiff n).2 hn)
    · exact srt.sorted _ _ (strictWeak_bytes Prod.fst)
    · have hp := (srt.perm (fun a b => bytesLt a.1 b.1) (it.run [3, i] ps)).trans (it.perm [3, i] ps)
      exact (hp.map Prod.fst).nodup_iff.2 ((hperm.nodup_iff.2 hnd).sublist (planAll_ok h).1)
    · intro n k
      have hp := (srt.perm (fun a b => bytesLt a.1 b.1) (it.run [3, i] ps)).trans (it.perm [3, i] ps)
      rw [hp.mem_iff, planAll_mem h, hiff]
  · exact absurd h (planAll_noErr _ _ _ _)
  · refine .inl ⟨?_, by simp only [classProps, h]; rfl⟩
    rw [h] at hisok
    simp only [Res.isOk_panic, false_iff] at hisok
    have := Classical.not_forall.1 hisok
    obtain ⟨n, hn⟩ := this
    have := Classical.not_imp.1 hn
    exact ⟨n, (hiff n).1 this.1, this.2⟩

omit [DecidableEq ρ] in
/-- Two plans are equal if they have the same entries. -/
theorem plan_eq {x y : List (Bytes × Kind)}
    (h1 : x.Pairwise (fun a b => bytesLt b.1 a.1 = false)) (n1 : (x.map Prod.fst).Nodup)
    (h2 : y.Pairwise (fun a b => bytesLt b.1 a.1 = false)) (n2 : (y.map Prod.fst).Nodup)
    (h : ∀ n k, (n, k) ∈ x ↔ (n, k) ∈ y) : x = y := by
  have nd : ∀ {z : List (Bytes × Kind)}, (z.map Prod.fst).Nodup → z.Nodup := by
    intro z hz
    unfold List.Nodup at hz ⊢
    rw [List.pairwise_map] at hz
    exact hz.imp (fun hab e => hab (by rw [e]))
  refine sorted_unique Prod.fst h1 h2 ?_ n1
  exact (List.perm_ext_iff_of_nodup (nd n1) (nd n2)).2 fun a => h a.1 a.2

omit [DecidableEq ρ] in
theorem classProps_indep (it it' : Iter) (srt srt' : Sorter) (place : Bool) (i i' : Nat)
    (insts : List (Inst ρ)) :
    classProps it srt place i insts = classProps it' srt' place i' insts := by
  rcases classProps_cases it srt place i insts with ⟨⟨n, h1, h2⟩, e⟩ | ⟨h, plan, e, s, d, m⟩ <;>
    rcases classProps_cases it' srt' place i' insts with
      ⟨⟨n', h1', h2'⟩, e'⟩ | ⟨h', plan', e', s', d', m'⟩
  · rw [e, e']
  · exact absurd (h' n h1) h2
  · exact absurd (h n' h1') h2'
  · rw [e, e', plan_eq s d s' d' (fun n k => (m n k).trans (m' n k).symm)]

omit [DecidableEq ρ] in
theorem classList_indep (it it' : Iter) (srt srt' : Sorter) (place : Bool)
    (insts : List (Inst ρ)) :
    classList it srt place insts = classList it' srt' place insts := by
  obtain ⟨hok, _⟩ := groupClasses_spec place insts
  have hcls : ∀ e ∈ groupClasses place insts, e.2.className = e.1 := fun e he => by
    rw [(groupClasses_mem place insts he).1]; rfl
  have hn : (((groupClasses place insts).map Prod.snd).map InstChunk.className).Nodup := by
    rw [List.map_map]
    have : (groupClasses place insts).map (InstChunk.className ∘ Prod.snd) =
        (groupClasses place insts).map Prod.fst := List.map_congr_left hcls
    rw [this]; exact hok
  unfold classList
  have hp := it.perm [0] ((groupClasses place insts).map Prod.snd)
  have hp' := it'.perm [0] ((groupClasses place insts).map Prod.snd)
  rw [Sorter.unique srt srt' InstChunk.className (hp.trans hp'.symm)
    ((hp.map _).nodup_iff.2 hn)]

theorem propChunks_indep (it it' : Iter) (srt srt' : Sorter) (hash : Bytes → Bytes) (place : Bool)
    (L : Map ρ (Inst ρ)) : ∀ (cs : List InstChunk) (i i' : Nat) (sh : Shared),
    propChunks it srt hash place L i cs sh = propChunks it' srt' hash place L i' cs sh := by
  intro cs
  induction cs with
  | nil => intro i i' sh; rfl
  | cons c cs ih =>
    intro i i' sh
    simp only [propChunks]
    congr 1
    funext insts
    rw [classProps_indep it it' srt srt' place i i' insts]
    congr 1
    funext ps
    congr 1
    funext x
    rw [ih (i + 1) (i' + 1) x.2]

/-! ### Place and model -/

omit [DecidableEq ρ] in
theorem planRest_kind {t : TypeID} {k k' : Kind} : ∀ {vs : List (Value ρ)},
    planRest t k vs = .ok (some k') → k' = k ∧ ∀ v ∈ vs, fromValueType v.type = some t := by
  intro vs
  induction vs with
  | nil => intro h; cases h; simp
  | cons v vs ih =>
    intro h
    unfold planRest at h
    split at h
    · cases h
    · rename_i hv
      have hv' : fromValueType v.type = some t := Classical.byContradiction fun h => hv h
      split at h
      · split at h
        · cases h
        · obtain ⟨h1, h2⟩ := ih h
          exact ⟨h1, fun w hw => (List.mem_cons.1 hw).elim (fun e => e ▸ hv') (h2 w)⟩
      · obtain ⟨h1, h2⟩ := ih h
        exact ⟨h1, fun w hw => (List.mem_cons.1 hw).elim (fun e => e ▸ hv') (h2 w)⟩

theorem fromValueType_uniqueId {t : Ty} (h : fromValueType t = some .uniqueId) : t = .uniqueId := by
  cases t <;> simp [fromValueType] at h ⊢

omit [DecidableEq ρ] in
theorem planRest_uniqueId : ∀ (vs : List (Value ρ)),
    planRest .uniqueId (.plain .uniqueId) vs = .ok none ∨
    planRest .uniqueId (.plain .uniqueId) vs = .ok (some (.plain .uniqueId)) := by
  intro vs
  induction vs with
  | nil => exact .inr rfl
  | cons v vs ih =>
    unfold planRest
    split
    · exact .inl rfl
    · rename_i hv
      have hv' : fromValueType v.type = some .uniqueId := Classical.byContradiction fun h => hv h
      have := fromValueType_uniqueId hv'
      split
      · simp [Value.type] at this
      · exact ih

/-- Whether the property is kept in a model. -/
def keptKind : Kind → Bool
  | .plain .uniqueId => false
  | _ => true

omit [DecidableEq ρ] in
theorem planProp_place (insts : List (Inst ρ)) (n : Bytes) :
    planProp false insts n = match planProp true insts n with
      | .ok (some k) => .ok (if keptKind k then some k else none)
      | r => r := by
  have rest : ∀ (t : TypeID) (k : Kind) (vs : List (Value ρ)), keptKind k = true →
      planRest t k vs = match planRest t k vs with
        | .ok (some k) => .ok (if keptKind k then some k else none)
        | r => r := by
    intro t k vs hk
    rcases h : planRest t k vs with (_ | k') | e | _
    · rfl
    · have := (planRest_kind h).1
      subst this
      simp [hk]
    · rfl
    · rfl
  unfold planProp
  split
  · rfl
  · rename_i v vs hvs
    rcases ht : fromValueType v.type with _ | t
    · rfl
    · simp only [Bool.not_false, Bool.true_and, Bool.not_true, Bool.false_and, decide_eq_true_eq,
        Bool.false_eq_true, if_false]
      by_cases hu : t = .uniqueId
      · subst hu
        rw [if_pos rfl]
        have hvu := fromValueType_uniqueId ht
        cases v <;> simp [Value.type] at hvu
        simp only
        rcases planRest_uniqueId vs with h | h <;> rw [h] <;> rfl
      · rw [if_neg hu]
        split
        · split
          · rfl
          · exact rest _ _ _ rfl
        · refine rest _ _ _ ?_
          unfold keptKind
          split
          · rename_i h; cases h; exact absurd rfl hu
          · rfl

omit [DecidableEq ρ] in
theorem planProp_uniqueId {insts : List (Inst ρ)} {n : Bytes}
    (h : planProp true insts n = .ok (some (.plain .uniqueId))) :
    ∀ i ∈ insts, ∀ v, i.properties.get? n = some v → v.type = .uniqueId := by
  intro i hi v hv
  have hmem : v ∈ insts.filterMap fun i => i.properties.get? n := List.mem_filterMap.2 ⟨i, hi, hv⟩
  unfold planProp at h
  split at h
  · cases h
  · rename_i w ws hws
    rw [hws] at hmem
    split at h
    · cases h
    · rename_i t ht
      split at h
      · cases h
      · split at h
        · split at h
          · cases h
          · have := (planRest_kind h).1
            cases this
        · obtain ⟨h1, h2⟩ := planRest_kind h
          cases h1
          rcases List.mem_cons.1 hmem with rfl | hm
          · exact fromValueType_uniqueId ht
          · exact fromValueType_uniqueId (h2 v hm)

theorem fillPlain_uniqueId (hash : Bytes → Bytes) (ref : Option ρ → BitVec 32) (n : Bytes) :
    ∀ (insts : List (Inst ρ)) (sh : Shared),
    (∀ i ∈ insts, ∀ v, i.properties.get? n = some v → v.type = .uniqueId) →
    ∃ vs, fillPlain hash ref .uniqueId n insts sh = .ok (vs, sh) := by
  intro insts
  induction insts with
  | nil => intro sh _; exact ⟨[], rfl⟩
  | cons i is ih =>
    intro sh h
    obtain ⟨vs, hvs⟩ := ih sh (fun j hj => h j (by simp [hj]))
    have : ∃ w, fillValue hash ref .uniqueId (i.properties.get? n) sh = .ok (w, sh) := by
      rcases hv : i.properties.get? n with _ | v
      · exact ⟨_, rfl⟩
      · have := h i (by simp) v hv
        cases v <;> simp [Value.type] at this
        exact ⟨_, rfl⟩
    obtain ⟨w, hw⟩ := this
    exact ⟨w :: vs, by simp only [fillPlain, hw, hvs, Res.ok_bind, Res.pure_eq]⟩

/-- Whether a property chunk is kept in a model. -/
def keptProp (c : PropChunk) : Bool :=
  match c.props with
  | some (.plain .uniqueId _) => false
  | _ => true

omit [DecidableEq ρ] in
theorem fillProp_kept {hash : Bytes → Bytes} {ref : Option ρ → BitVec 32} {cid : BitVec 32}
    {insts : List (Inst ρ)} {p : Bytes × Kind} {sh sh' : Shared} {c : PropChunk}
    (h : fillProp hash ref cid insts p sh = .ok (c, sh')) : keptProp c = keptKind p.2 := by
  unfold fillProp at h
  split at h
  · rename_i t ht
    rcases h1 : fillPlain hash ref t p.1 insts sh with x | e | _
    · rw [h1] at h
      simp only [Res.ok_bind, Res.pure_eq, Res.ok.injEq, Prod.mk.injEq] at h
      obtain ⟨rfl, _⟩ := h
      rw [ht]
      cases t <;> rfl
    · rw [h1] at h; cases h
    · rw [h1] at h; cases h
  · rename_i t ht
    rcases h1 : fillOpts t p.1 insts with x | e | _
    · rw [h1] at h
      simp only [Res.ok_bind, Res.pure_eq, Res.ok.injEq, Prod.mk.injEq] at h
      obtain ⟨rfl, _⟩ := h
      rw [ht]
      rfl
    · rw [h1] at h; cases h
    · rw [h1] at h; cases h

/-- Remove the property chunks not kept in a model. -/
def dropUnique (r : Res (List PropChunk × Shared)) : Res (List PropChunk × Shared) :=
  match r with
  | .ok (cs, sh) => .ok (cs.filter keptProp, sh)
  | .err e => .err e
  | .panic => .panic

theorem fillProps_place (hash : Bytes → Bytes) (ref : Option ρ → BitVec 32) (cid : BitVec 32)
    (insts : List (Inst ρ)) : ∀ (plan : List (Bytes × Kind)) (sh : Shared),
    (∀ n, (n, Kind.plain .uniqueId) ∈ plan →
      ∀ i ∈ insts, ∀ v, i.properties.get? n = some v → v.type = .uniqueId) →
    fillProps hash ref cid insts (plan.filter fun p => keptKind p.2) sh =
      dropUnique (fillProps hash ref cid insts plan sh) := by
  intro plan
  induction plan with
  | nil => intro sh _; rfl
  | cons p plan ih =>
    intro sh h
    have ih' := fun sh => ih sh (fun n hn => h n (by simp [hn]))
    by_cases hk : keptKind p.2 = true
    · rw [List.filter_cons_of_pos (by exact hk)]
      simp only [fillProps]
      rcases h1 : fillProp hash ref cid insts p sh with ⟨c, sh1⟩ | e | _
      · simp only [Res.ok_bind]
        rw [ih' sh1]
        rcases h2 : fillProps hash ref cid insts plan sh1 with ⟨cs, sh2⟩ | e | _
        · have := fillProp_kept h1
          simp only [dropUnique, Res.ok_bind, Res.pure_eq]
          rw [List.filter_cons_of_pos (by rw [this]; exact hk)]
        · rfl
        · rfl
      · rfl
      · rfl
    · rw [List.filter_cons_of_neg (by exact hk)]
      obtain ⟨n, k⟩ := p
      have hk' : k = .plain .uniqueId := by
        unfold keptKind at hk
        split at hk
        · assumption
        · exact absurd rfl hk
      subst hk'
      obtain ⟨vs, hvs⟩ := fillPlain_uniqueId hash ref n insts sh (h n (by simp))
      rw [ih' sh]
      simp only [fillProps, fillProp, hvs, Res.ok_bind, Res.pure_eq]
      rcases h2 : fillProps hash ref cid insts plan sh with ⟨cs, sh2⟩ | e | _
      · simp only [dropUnique, Res.ok_bind]
        rw [List.filter_cons_of_neg (by simp [keptProp])]
      · rfl
      · rfl

omit [DecidableEq ρ] in
theorem classProps_place (it it' : Iter) (srt srt' : Sorter) (i i' : Nat) (insts : List (Inst ρ)) :
    classProps it' srt' false i' insts = match classProps it srt true i insts with
      | .ok plan => .ok (plan.filter fun p => keptKind p.2)
      | r => r := by
  have hok : ∀ n, (planProp false insts n).isOk ↔ (planProp true insts n).isOk := by
    intro n
    rw [planProp_place]
    rcases planProp true insts n with (_ | k) | e | _ <;> simp
  rcases classProps_cases it srt true i insts with ⟨⟨n, h1, h2⟩, e⟩ | ⟨h, plan, e, s, d, m⟩ <;>
    rcases classProps_cases it' srt' false i' insts with
      ⟨⟨n', h1', h2'⟩, e'⟩ | ⟨h', plan', e', s', d', m'⟩
  · rw [e, e']
  · exact absurd ((hok n).1 (h' n h1)) h2
  · exact absurd ((hok n').2 (h n' h1')) h2'
  · rw [e, e']
    simp only
    rw [plan_eq s' d' (s.filter _) (d.sublist (List.Sublist.map _ List.filter_sublist)) ?_]
    intro n k
    rw [m', List.mem_filter, m, planProp_place]
    rcases planProp true insts n with (_ | k') | e | _
    · simp
    · by_cases hk : keptKind k' = true
      · simp only [hk, if_true, Res.ok.injEq, Option.some.injEq]
        constructor
        · rintro ⟨a, rfl⟩; exact ⟨⟨a, rfl⟩, hk⟩
        · rintro ⟨⟨a, rfl⟩, _⟩; exact ⟨a, rfl⟩
      · simp only [hk, Res.ok.injEq, Option.some.injEq]
        constructor
        · rintro ⟨a, h⟩; simp at h
        · rintro ⟨⟨a, rfl⟩, h⟩; exact absurd h hk
    · simp
    · simp

theorem propChunks_place (it it' : Iter) (srt srt' : Sorter) (hash : Bytes → Bytes)
    (L : Map ρ (Inst ρ)) : ∀ (cs cs' : List InstChunk) (i i' : Nat) (sh : Shared),
    cs.map (fun c => (c.ids, c.classID)) = cs'.map (fun c => (c.ids, c.classID)) →
    propChunks it' srt' hash false L i' cs' sh =
      dropUnique (propChunks it srt hash true L i cs sh) := by
  intro cs
  induction cs with
  | nil =>
    intro cs' i i' sh h
    have : cs' = [] := by simpa using h.symm
    subst this
    rfl
  | cons c cs ih =>
    intro cs' i i' sh h
    cases cs' with
    | nil => simp at h
    | cons c' cs' =>
      simp only [List.map_cons, List.cons.injEq, Prod.mk.injEq] at h
      obtain ⟨⟨h1, h2⟩, h3⟩ := h
      simp only [propChunks]
      rw [← h1, ← h2]
      rcases hi : instsOf (L.map Prod.snd) c.ids with insts | e | _
      · simp only [Res.ok_bind]
        rw [classProps_place it it' srt srt' i i' insts]
        rcases classProps_cases it srt true i insts with ⟨_, e⟩ | ⟨hh, plan, e, s, d, m⟩
        · rw [e]; rfl
        · rw [e]
          simp only [Res.ok_bind]
          rw [fillProps_place hash (refNum L) c.classID insts plan sh
            (fun n hn => planProp_uniqueId ((m n _).1 hn).2)]
          rcases h4 : fillProps hash (refNum L) c.classID insts plan sh with ⟨xs, sh1⟩ | e | _
          · simp only [dropUnique, Res.ok_bind]
            rw [ih cs' (i + 1) (i' + 1) sh1 h3]
            rcases h5 : propChunks it srt hash true L (i + 1) cs sh1 with ⟨ys, sh2⟩ | e | _
            · simp only [dropUnique, Res.ok_bind, Res.pure_eq, List.filter_append]
            · rfl
            · rfl
          · rfl
          · rfl
      · rfl
      · rfl

/-- The INST chunk in a model. -/
def clearService (c : InstChunk) : InstChunk :=
  { c with isService := false, getService := List.replicate c.ids.length 0#8 }

omit [DecidableEq ρ] in
theorem classList_place (it it' : Iter) (srt srt' : Sorter) (insts : List (Inst ρ)) :
    classList it' srt' false insts = (classList it srt true insts).map clearService := by
  obtain ⟨names, n1, s1, m1, e1⟩ := classList_eq it srt true insts
  obtain ⟨names', n2, s2, m2, e2⟩ := classList_eq it' srt' false insts
  have flip : ∀ {a b : Bytes}, bytesLt a b = true → bytesLt b a = false := by
    intro a b h
    cases h' : bytesLt b a with
    | false => rfl
    | true => have := bytesLt_trans h h'; rw [bytesLt_irrefl] at this; cases this
  have : names' = names := sorted_unique id (s2.imp flip) (s1.imp flip)
    ((List.perm_ext_iff_of_nodup n2 n1).2 fun a => (m2 a).trans (m1 a).symm) (by simpa using n2)
  rw [e1, e2, this, List.map_map]
  apply List.map_congr_left
  intro c _
  simp [clearService, chunkOf, Function.comp_def, List.map_const']

end Rbxl

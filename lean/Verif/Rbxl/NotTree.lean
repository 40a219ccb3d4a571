import Verif.Rbxfile.Finite
import Verif.Rbxl.EncPanics
import Verif.Rbxl.EncOrder
import Batteries.Data.List.Perm
/-!
# The binary encoder on structures of instances that are not trees
-/
namespace Rbxl
open Go Rbxfile Spec

variable {ρ : Type} [DecidableEq ρ]

/-! ## The links are those of a finite structure -/

theorem recAll_finite {h : Heap ρ} : ∀ (fuel : Nat) (ps : List ρ) (par : Option ρ) (acc pairs : List (ρ × Option ρ)),
    ps.foldlM (fun acc c => do
      let l ← recInst h fuel par c
      pure (acc ++ l)) acc = .ok pairs →
    ∃ l : Map ρ (Inst ρ), Forest h ps l ∧ pairs.length = acc.length + l.length := by
  intro fuel
  induction fuel with
  | zero =>
    intro ps par acc pairs he
    cases ps with
    | nil => cases he; exact ⟨[], .nil, by simp⟩
    | cons p ps => simp only [List.foldlM_cons, recInst] at he; cases he
  | succ fuel ihf =>
    intro ps
    induction ps with
    | nil => intro par acc pairs he; cases he; exact ⟨[], .nil, by simp⟩
    | cons p ps ih =>
      intro par acc pairs he
      rw [List.foldlM_cons] at he
      obtain ⟨acc1, h1, h2⟩ := Res.bind_eq_ok.1 he
      obtain ⟨q, h3, h4⟩ := Res.bind_eq_ok.1 h1
      cases h4
      rw [recInst] at h3
      cases hp : h.get? p with
      | none => simp only [hp] at h3; cases h3
      | some inst =>
        simp only [hp] at h3
        obtain ⟨below, h5, h6⟩ := Res.bind_eq_ok.1 h3
        cases h6
        obtain ⟨lb, g1, g2⟩ := ihf _ _ _ _ h5
        obtain ⟨lr, k1, k2⟩ := ih _ _ _ h2
        refine ⟨_, .cons hp g1 k1, ?_⟩
        simp only [List.length_append, List.length_cons, List.length_nil] at *
        omega

/-! ## The instances that are listed -/

/-- What is listed is within a set that is closed under children; nothing is listed twice. -/
theorem addAll_within {h : Heap ρ} {S : ρ → Prop} (hS : ∀ p a, S p → h.get? p = some a → ∀ c ∈ a.children, S c) :
    ∀ (fuel : Nat) (ps : List ρ) (acc L : Map ρ (Inst ρ)), (∀ p ∈ ps, S p) →
    ps.foldlM (fun acc p => addInst h fuel p acc) acc = .ok L → acc.Ok → (∀ x ∈ acc, S x.1) →
    L.Ok ∧ (∀ x ∈ L, S x.1) ∧ (∀ x ∈ acc, x ∈ L) := by
  intro fuel
  induction fuel with
  | zero =>
    intro ps acc L hp he ho ha
    cases ps with
    | nil => cases he; exact ⟨ho, ha, fun _ h => h⟩
    | cons p ps => simp only [List.foldlM_cons, addInst] at he; cases he
  | succ fuel ihf =>
    intro ps
    induction ps with
    | nil => intro acc L hp he ho ha; cases he; exact ⟨ho, ha, fun _ h => h⟩
    | cons p ps ih =>
      intro acc L hp he ho ha
      rw [List.foldlM_cons] at he
      obtain ⟨acc1, h1, h2⟩ := Res.bind_eq_ok.1 he
      have key : acc1.Ok ∧ (∀ x ∈ acc1, S x.1) ∧ (∀ x ∈ acc, x ∈ acc1) := by
        rw [addInst] at h1
        by_cases hs : (acc.get? p).isSome
        · simp only [hs, if_true] at h1; cases h1; exact ⟨ho, ha, fun _ h => h⟩
        · simp only [hs, Bool.false_eq_true, if_false] at h1
          cases hp' : h.get? p with
          | none => simp only [hp'] at h1; cases h1; exact ⟨ho, ha, fun _ h => h⟩
          | some inst =>
            simp only [hp'] at h1
            have hSp := hp p (by simp)
            obtain ⟨g1, g2, g3⟩ := ihf _ _ _ (hS p inst hSp hp') h1 (by
              unfold Map.Ok
              rw [List.map_append, List.nodup_append]
              refine ⟨ho, by simp, ?_⟩
              intro a hm b hb
              simp only [List.map_cons, List.map_nil, List.mem_singleton] at hb
              subst hb
              rintro rfl
              exact hs (Map.get?_isSome.2 hm)) (by
              intro x hx
              rcases List.mem_append.1 hx with hx | hx
              · exact ha x hx
              · rw [List.mem_singleton.1 hx]; exact hSp)
            exact ⟨g1, g2, fun x hx => g3 x (by simp [hx])⟩
      obtain ⟨g1, g2, g3⟩ := ih acc1 L (fun q hq => hp q (by simp [hq])) h2 key.1 key.2.1
      exact ⟨g1, g2, fun x hx => g3 x (key.2.2 x hx)⟩

theorem addInst_mem {h : Heap ρ} {fuel : Nat} {p : ρ} {acc L : Map ρ (Inst ρ)} (hp : (h.get? p).isSome)
    (he : addInst h fuel p acc = .ok L) (ho : acc.Ok) : L ≠ [] := by
  cases fuel with
  | zero => simp only [addInst] at he; cases he
  | succ fuel =>
    rw [addInst] at he
    by_cases hs : (acc.get? p).isSome
    · simp only [hs, if_true] at he; cases he
      rintro rfl; cases hs
    · simp only [hs, Bool.false_eq_true, if_false] at he
      obtain ⟨inst, hi⟩ := Option.isSome_iff_exists.1 hp
      simp only [hi] at he
      obtain ⟨-, -, g⟩ := addAll_within (S := fun _ => True) (fun _ _ _ _ _ _ => trivial) fuel inst.children _ L
        (fun _ _ => trivial) he (by
          unfold Map.Ok
          rw [List.map_append, List.nodup_append]
          refine ⟨ho, by simp, ?_⟩
          intro a hm b hb
          simp only [List.map_cons, List.map_nil, List.mem_singleton] at hb
          subst hb
          rintro rfl
          exact hs (Map.get?_isSome.2 hm)) (fun _ _ => trivial)
      rintro rfl
      cases g (p, inst) (by simp)

theorem instList_ne {h : Heap ρ} {ps : List ρ} {L : Map ρ (Inst ρ)} (he : instList h ps = .ok L)
    (hp : ∃ p ∈ ps, (h.get? p).isSome) : L ≠ [] := by
  have key : ∀ (ps : List ρ) (acc : Map ρ (Inst ρ)), ps.foldlM (fun acc p => addInst h (h.length + 1) p acc) acc = .ok L →
      acc.Ok → (acc ≠ [] ∨ ∃ p ∈ ps, (h.get? p).isSome) → L ≠ [] := by
    intro ps
    induction ps with
    | nil =>
      rintro acc he - (h | ⟨_, h, -⟩)
      · cases he; exact h
      · cases h
    | cons p ps ih =>
      intro acc he ho hc
      rw [List.foldlM_cons] at he
      obtain ⟨acc1, h1, h2⟩ := Res.bind_eq_ok.1 he
      obtain ⟨g1, -, g3⟩ := addAll_within (S := fun _ => True) (fun _ _ _ _ _ _ => trivial) (h.length + 1) [p] acc acc1
        (fun _ _ => trivial) (by rw [List.foldlM_cons, h1]; rfl) ho (fun _ _ => trivial)
      refine ih acc1 h2 g1 ?_
      rcases hc with hc | ⟨q, hq, hs⟩
      · obtain ⟨x, hx⟩ := List.exists_mem_of_ne_nil _ hc
        exact .inl (List.ne_nil_of_mem (g3 x hx))
      · rcases List.mem_cons.1 hq with rfl | hq
        · exact .inl (addInst_mem hs h1 ho)
        · exact .inr ⟨q, hq, hs⟩
  exact key ps [] he (by unfold Map.Ok; simp) (.inr hp)

theorem instList_nil {h : Heap ρ} : ∀ {ps : List ρ}, (∀ p ∈ ps, h.get? p = none) → instList h ps = .ok [] := by
  intro ps hp
  unfold instList
  induction ps with
  | nil => rfl
  | cons p ps ih =>
    rw [List.foldlM_cons, addInst]
    simp only [Map.get?_nil, Option.isSome_none, Bool.false_eq_true, if_false, hp p (by simp), Res.ok_bind]
    exact ih fun q hq => hp q (by simp [hq])

/-- If the parent links can be stored, the instances are trees. -/
theorem trees_of_parentLinks {h : Heap ρ} {ps : List ρ} {L : Map ρ (Inst ρ)} {c : ParentChunk} (hl : instList h ps = .ok L)
    (hne : L ≠ []) (he : parentLinks h L ps = .ok c) : Trees h ps L := by
  unfold parentLinks at he
  rw [if_neg (by simpa using hne)] at he
  obtain ⟨links, h1, h2⟩ := Res.bind_eq_ok.1 he
  obtain ⟨l, f, hlen⟩ := recAll_finite _ _ _ _ _ h1
  simp only [List.length_nil, Nat.zero_add] at hlen
  split at h2
  · cases h2
  · rename_i hle
    obtain ⟨g1, g2, -⟩ := addAll_within (S := fun p => p ∈ l.map Prod.fst) (by
      intro p a hp ha c hc
      obtain ⟨x, hx, rfl⟩ := List.mem_map.1 hp
      have := Forest.get? f x hx
      rw [ha] at this; cases this
      exact Forest.children_mem f x hx c hc) _ _ _ _ (Forest.roots_mem f) hl (by unfold Map.Ok; simp) (by simp)
    have hsub : (L.map Prod.fst) ⊆ l.map Prod.fst := by
      intro p hp
      obtain ⟨x, hx, rfl⟩ := List.mem_map.1 hp
      exact g2 x hx
    have hperm : (L.map Prod.fst).Perm (l.map Prod.fst) :=
      (List.subperm_of_subset g1 hsub).perm_of_length_le (by simp; omega)
    have ht : Trees h ps l := ⟨f, hperm.nodup_iff.1 g1⟩
    rw [instList_trees ht] at hl
    cases hl
    exact ht

/-! ## There are no errors -/

theorem noErr_bind {α β : Type} {x : Res α} {f : α → Res β} (h : ∀ e, x ≠ .err e) (hf : ∀ a e, f a ≠ .err e) :
    ∀ e, x >>= f ≠ .err e := by
  intro e
  cases x with
  | ok a => exact hf a e
  | err e' => exact absurd rfl (h e')
  | panic => exact nofun

theorem addInst_noErr {h : Heap ρ} : ∀ (fuel : Nat) (ps : List ρ) (acc : Map ρ (Inst ρ)) (e : Err),
    ps.foldlM (fun acc p => addInst h fuel p acc) acc ≠ .err e := by
  intro fuel
  induction fuel with
  | zero => intro ps acc e; cases ps <;> simp only [List.foldlM_cons, List.foldlM_nil, addInst] <;> exact nofun
  | succ fuel ihf =>
    intro ps
    induction ps with
    | nil => exact nofun
    | cons p ps ih =>
      intro acc
      rw [List.foldlM_cons]
      refine noErr_bind ?_ fun a => ih a
      intro e
      rw [addInst]
      split
      · exact nofun
      · split
        · exact nofun
        · exact ihf _ _ _

theorem recInst_noErr {h : Heap ρ} : ∀ (fuel : Nat) (ps : List ρ) (par : Option ρ) (acc : List (ρ × Option ρ)) (e : Err),
    ps.foldlM (fun acc c => do
      let l ← recInst h fuel par c
      pure (acc ++ l)) acc ≠ .err e := by
  intro fuel
  induction fuel with
  | zero => intro ps par acc e; cases ps <;> simp only [List.foldlM_cons, List.foldlM_nil, recInst] <;> exact nofun
  | succ fuel ihf =>
    intro ps
    induction ps with
    | nil => exact nofun
    | cons p ps ih =>
      intro par acc
      rw [List.foldlM_cons]
      refine noErr_bind (noErr_bind ?_ fun _ _ hx => by cases hx) fun a => ih _ a
      intro e
      rw [recInst]
      split
      · exact nofun
      · exact noErr_bind (ihf _ _ _) (fun _ _ hx => by cases hx) e

theorem instsOf_noErr {insts : List (Inst ρ)} : ∀ (rs : List (BitVec 32)) (e : Err), instsOf insts rs ≠ .err e
  | [] => nofun
  | r :: rs => by
    intro e
    rw [instsOf]
    split
    · exact nofun
    · split
      · exact nofun
      · exact noErr_bind (instsOf_noErr rs) (fun _ _ hx => by cases hx) e

theorem fillValue_noErr (hash : Bytes → Bytes) (ref : Option ρ → BitVec 32) (t : TypeID) (v : Option (Value ρ)) (sh : Shared)
    (e : Err) : fillValue hash ref t v sh ≠ .err e := by
  unfold fillValue
  simp only
  generalize (match v with
    | none => (none, sh)
    | some (.reference p) => (some (.reference (ref p)), sh)
    | some (.sharedString s) => (some (.sharedString (intern hash sh s).1), (intern hash sh s).2)
    | some v => (encodeValue v, sh) : Option Val × Shared) = r
  split
  · split
    · exact nofun
    · split <;> exact nofun
  · split <;> exact nofun

theorem fillPlain_noErr (hash : Bytes → Bytes) (ref : Option ρ → BitVec 32) (t : TypeID) (name : Bytes) :
    ∀ (is : List (Inst ρ)) (sh : Shared) (e : Err), fillPlain hash ref t name is sh ≠ .err e
  | [], _ => nofun
  | i :: is, sh => noErr_bind (fillValue_noErr hash ref t _ sh) fun x => noErr_bind (fillPlain_noErr hash ref t name is x.2) fun _ _ hx => by cases hx

theorem fillOpt_noErr (t : TypeID) (v : Option (Value ρ)) (e : Err) : fillOpt t v ≠ .err e := by
  unfold fillOpt
  simp only
  generalize (match v with
    | some (.optional _ (some v)) => encodeValue v
    | _ => none : Option Val) = b
  split
  · split <;> exact nofun
  · split <;> exact nofun

theorem fillOpts_noErr (t : TypeID) (name : Bytes) : ∀ (is : List (Inst ρ)) (e : Err), fillOpts t name is ≠ .err e
  | [] => nofun
  | i :: is => noErr_bind (fillOpt_noErr t _) fun _ => noErr_bind (fillOpts_noErr t name is) fun _ _ hx => by cases hx

theorem fillProp_noErr (hash : Bytes → Bytes) (ref : Option ρ → BitVec 32) (classID : BitVec 32) (insts : List (Inst ρ))
    (p : Bytes × Kind) (sh : Shared) (e : Err) : fillProp hash ref classID insts p sh ≠ .err e := by
  unfold fillProp
  split
  · exact noErr_bind (fillPlain_noErr hash ref _ _ insts sh) (fun _ _ hx => by cases hx) e
  · exact noErr_bind (fillOpts_noErr _ _ insts) (fun _ _ hx => by cases hx) e

theorem fillProps_noErr (hash : Bytes → Bytes) (ref : Option ρ → BitVec 32) (classID : BitVec 32) (insts : List (Inst ρ)) :
    ∀ (ps : List (Bytes × Kind)) (sh : Shared) (e : Err), fillProps hash ref classID insts ps sh ≠ .err e
  | [], _ => nofun
  | p :: ps, sh => noErr_bind (fillProp_noErr hash ref classID insts p sh) fun x =>
      noErr_bind (fillProps_noErr hash ref classID insts ps x.2) fun _ _ hx => by cases hx

theorem propChunks_noErr (it : Iter) (srt : Sorter) (hash : Bytes → Bytes) (place : Bool) (L : Map ρ (Inst ρ)) :
    ∀ (cs : List InstChunk) (i : Nat) (sh : Shared) (e : Err), propChunks it srt hash place L i cs sh ≠ .err e
  | [], _, _ => nofun
  | c :: cs, i, sh => by
    rw [propChunks]
    refine noErr_bind (instsOf_noErr _) fun insts => noErr_bind (noErr_bind (planAll_noErr _ _ _) fun _ _ hx => by cases hx) fun ps => ?_
    exact noErr_bind (fillProps_noErr _ _ _ _ _ _) fun x => noErr_bind (propChunks_noErr it srt hash place L cs _ _) fun _ _ hx => by cases hx

theorem parentLinks_noErr (h : Heap ρ) (L : Map ρ (Inst ρ)) (ps : List ρ) (e : Err) : parentLinks h L ps ≠ .err e := by
  unfold parentLinks
  split
  · exact nofun
  · refine noErr_bind (recInst_noErr _ _ _ _) (fun links e => ?_) e
    split <;> exact nofun

/-- The codec never returns an error. -/
theorem codecEncode_noErr (it : Iter) (srt : Sorter) (hash : Bytes → Bytes) (place : Bool) (h : Heap ρ) (root : Root ρ) :
    ∀ e, codecEncode it srt hash place h root ≠ .err e := by
  unfold codecEncode
  exact noErr_bind (addInst_noErr _ _ _) fun L => noErr_bind (propChunks_noErr it srt hash place L _ 0 []) fun x =>
    noErr_bind (parentLinks_noErr h L _) fun _ _ hx => by cases hx

/-- What the codec accepts are trees, unless all instances are nil. -/
theorem codecEncode_trees {it : Iter} {srt : Sorter} {hash : Bytes → Bytes} {place : Bool} {h : Heap ρ} {root : Root ρ}
    {f : FormatModel} (he : codecEncode it srt hash place h root = .ok f) (hp : ∃ p ∈ root.instances, (h.get? p).isSome) :
    ∃ l, Trees h root.instances l := by
  unfold codecEncode at he
  obtain ⟨L, h1, h2⟩ := Res.bind_eq_ok.1 he
  obtain ⟨x, h3, h4⟩ := Res.bind_eq_ok.1 h2
  obtain ⟨c, h5, h6⟩ := Res.bind_eq_ok.1 h4
  exact ⟨L, trees_of_parentLinks h1 (instList_ne h1 hp) h5⟩

/-- Nil instances at the top are ignored if there are no others. -/
theorem codecEncode_nil (it : Iter) (srt : Sorter) (hash : Bytes → Bytes) (place : Bool) (h : Heap ρ) (root : Root ρ)
    (hp : ∀ p ∈ root.instances, h.get? p = none) :
    codecEncode it srt hash place h root = codecEncode it srt hash place h { root with instances := [] } := by
  unfold codecEncode
  rw [instList_nil hp, instList_nil (ps := []) (by simp)]
  rfl

end Rbxl

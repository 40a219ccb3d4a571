import Verif.Rbxl.Resave
import Verif.Spec.SameTree
/-!
# Trees that differ only in where their instances are stored are written alike
-/
namespace Rbxl
open Go Rbxfile Spec

variable {ρ σ : Type}

/-- Two values of the same type that are stored alike. -/
def SameV (ref : Option ρ → BitVec 32) (ref' : Option ρ → BitVec 32) (v w : Value ρ) : Prop :=
  (v = w ∧ ∀ p, v ≠ .reference p) ∨ ∃ p q, v = .reference p ∧ w = .reference q ∧ ref' q = ref p

theorem SameV.type {ref ref' : Option ρ → BitVec 32} {v w : Value ρ} (h : SameV ref ref' v w) : w.type = v.type := by
  rcases h with ⟨rfl, _⟩ | ⟨p, q, rfl, rfl, _⟩ <;> rfl

theorem planRest_same {ref ref' : Option ρ → BitVec 32} {t : TypeID} {k : Kind} : ∀ {vs ws : List (Value ρ)},
    List.Forall₂ (SameV ref ref') vs ws → planRest t k ws = planRest t k vs := by
  intro vs ws h
  induction h with
  | nil => rfl
  | cons h1 _ ih =>
    rcases h1 with ⟨rfl, _⟩ | ⟨p, q, rfl, rfl, _⟩
    · unfold planRest
      rw [ih]
    · show (if fromValueType Ty.reference ≠ some t then Res.ok none else planRest t k _) =
        if fromValueType Ty.reference ≠ some t then Res.ok none else planRest t k _
      rw [ih]

theorem planProp_same {ref ref' : Option ρ → BitVec 32} {place : Bool} {is js : List (Inst ρ)} {n : Bytes}
    (h : List.Forall₂ (SameV ref ref') (valuesOf is n) (valuesOf js n)) : planProp place js n = planProp place is n := by
  unfold planProp
  have e : (is.filterMap fun i => i.properties.get? n) = valuesOf is n := rfl
  have e' : (js.filterMap fun i => i.properties.get? n) = valuesOf js n := rfl
  rw [e, e']
  clear e e'
  generalize valuesOf is n = a at h
  generalize valuesOf js n = b at h
  cases h with
  | nil => rfl
  | cons h1 h2 =>
    rcases h1 with ⟨rfl, _⟩ | ⟨p, q, rfl, rfl, _⟩
    · simp only [planRest_same h2]
    · simp only [Value.type, planRest_same h2]

/-- Two properties that are stored alike. -/
def SameO (ref ref' : Option ρ → BitVec 32) : Option (Value ρ) → Option (Value ρ) → Prop
  | none, none => True
  | some v, some w => SameV ref ref' v w
  | _, _ => False

theorem valuesOf_same {ref ref' : Option ρ → BitVec 32} {n : Bytes} : ∀ {is js : List (Inst ρ)},
    List.Forall₂ (fun i j => SameO ref ref' (i.properties.get? n) (j.properties.get? n)) is js →
    List.Forall₂ (SameV ref ref') (valuesOf is n) (valuesOf js n) := by
  intro is js h
  induction h with
  | nil => exact .nil
  | @cons i j is js h1 _ ih =>
    have step : ∀ (i : Inst ρ) is, valuesOf (i :: is) n = ((i.properties.get? n).toList) ++ valuesOf is n := by
      intro i is
      simp only [valuesOf, List.filterMap_cons]
      cases i.properties.get? n <;> rfl
    rw [step, step]
    rcases hi : i.properties.get? n with _ | v <;> rcases hj : j.properties.get? n with _ | w <;> rw [hi, hj] at h1
    · exact ih
    · exact absurd h1 id
    · exact absurd h1 id
    · exact .cons h1 ih

theorem sameClass_same {place : Bool} {ref ref' : Option ρ → BitVec 32} {s0 : Bytes} {is js : List (Inst ρ)}
    (h : ∀ n, List.Forall₂ (fun i j => SameO ref ref' (i.properties.get? n) (j.properties.get? n)) is js) :
    SameClass place ref ref' s0 is js := by
  have hlen : ∀ n, (valuesOf is n = [] ↔ valuesOf js n = []) := by
    intro n
    have := (valuesOf_same (h n)).length_eq
    rw [← List.length_eq_zero_iff, ← List.length_eq_zero_iff, this]
  refine ⟨?_, ?_⟩
  · intro n k h1 h2
    refine ⟨fun e => h1 ((hlen n).2 e), by rw [planProp_same (valuesOf_same (h n))]; exact h2, ?_⟩
    obtain ⟨hn, hp⟩ : Written place (valuesOf is n) ∧ PlanSpec place (valuesOf is n) k := by
      rcases planProp_ok h2 with ⟨e, _⟩ | ⟨k', e, a, b⟩
      · cases e
      · cases e; exact ⟨a, b⟩
    have hmem := forall₂_mem_left (h n)
    have hown : ∀ i ∈ is, ∀ v, i.properties.get? n = some v → v ∈ valuesOf is n :=
      fun i hi v hv => List.mem_filterMap.2 ⟨i, hi, hv⟩
    obtain ⟨v0, hv0⟩ := List.exists_mem_of_ne_nil _ h1
    cases k with
    | plain t =>
      obtain ⟨a1, _, a3⟩ := hp
      refine ⟨a1, a3, ?_, ?_⟩
      · rintro rfl
        have := a3 v0 hv0
        cases v0 <;> simp [Value.type, fromValueType] at this
        exact ⟨_, hv0⟩
      · refine hmem.imp ?_
        rintro i j ⟨hi, hs⟩
        rcases h1 : i.properties.get? n with _ | v <;> rcases h2 : j.properties.get? n with _ | w <;> rw [h1, h2] at hs
        · trivial
        · exact absurd hs id
        · exact absurd hs id
        · rcases hs with ⟨rfl, hnr⟩ | ⟨p, q, rfl, rfl, hpq⟩
          · have h3 := a3 v (hown i hi v h1)
            show SameVal ref ref' v v
            have plain : Value.plainValue v → ∃ b b', encodeValue v = some b ∧ encodeValue v = some b' ∧ b'.canon = b.canon := by
              intro hpl
              obtain ⟨b, hb, _⟩ := encodeValue_some v hpl
              exact ⟨b, b, hb, hb, rfl⟩
            cases v
            case reference p => exact absurd rfl (hnr p)
            case sharedString s => rfl
            case optional =>
              simp only [Value.type, fromValueType, Option.some.injEq] at h3
              exact absurd h3.symm a1
            all_goals exact plain trivial
          · exact ⟨q, rfl, hpq⟩
    | opt e =>
      refine hmem.imp ?_
      rintro i j ⟨hi, hs⟩
      rcases h1 : i.properties.get? n with _ | v <;> rcases h2 : j.properties.get? n with _ | w <;> rw [h1, h2] at hs
      · rfl
      · exact absurd hs id
      · exact absurd hs id
      · rcases hs with ⟨rfl, hnr⟩ | ⟨p, q, rfl, rfl, hpq⟩
        · rfl
        · rfl
  · intro n hn
    have hn' : valuesOf is n ≠ [] := fun e => hn ((hlen n).1 e)
    rcases hpl : planProp place is n with r | e | _
    · rcases r with _ | k
      · right; left
        rw [planProp_same (valuesOf_same (h n))]; exact hpl
      · exact .inl ⟨hn', k, rfl⟩
    · exact .inr (.inr ⟨hn', fun h => h⟩)
    · exact .inr (.inr ⟨hn', fun h => h⟩)

variable [DecidableEq ρ]

theorem refNum_nowhere {L : Map ρ (Inst ρ)} {p : Option ρ} (h : ∀ a, p = some a → a ∉ L.map Prod.fst) : refNum L p = -1 := by
  cases p with
  | none => rfl
  | some a => exact refNum_not_mem (h a rfl)

theorem alike_same {place : Bool} {s0 : Bytes} {h h' : Heap ρ} {root root' : Root ρ} {l l' : Map ρ (Inst ρ)}
    {ren : List (ρ × ρ)} (ht : Trees h root.instances l) (ht' : Trees h' root'.instances l')
    (hs : SameTree h root.instances l h' root'.instances l' ren) :
    ∃ φ, Alike place s0 φ h root l h' root' := by
  have hok : Map.Ok ren := by
    show (ren.map Prod.fst).Nodup
    rw [hs.left]; exact ht.2
  have hφ : ∀ {p c}, (p, c) ∈ ren → ((Map.get? ren p).getD p) = c := by
    intro p c hm
    rw [Map.get?_of_mem hok hm]; rfl
  have hmem : ∀ p ∈ l.map Prod.fst, ∃ c, (p, c) ∈ ren := by
    intro p hp
    rw [← hs.left] at hp
    obtain ⟨⟨a, c⟩, hx, rfl⟩ := List.mem_map.1 hp
    exact ⟨c, hx⟩
  have hinj : ∀ p ∈ l.map Prod.fst, ∀ q ∈ l.map Prod.fst, (Map.get? ren p).getD p = (Map.get? ren q).getD q → p = q := by
    intro p hp q hq he
    obtain ⟨c, hc⟩ := hmem p hp
    obtain ⟨d, hd⟩ := hmem q hq
    rw [hφ hc, hφ hd] at he
    subst he
    have hnd : Map.Ok (ren.map Prod.swap) := by
      show ((ren.map Prod.swap).map Prod.fst).Nodup
      rw [List.map_map]
      show (ren.map Prod.snd).Nodup
      rw [hs.right]; exact ht'.2
    have e1 := Map.get?_of_mem hnd (List.mem_map_of_mem (f := Prod.swap) hc)
    have e2 := Map.get?_of_mem hnd (List.mem_map_of_mem (f := Prod.swap) hd)
    rw [e1] at e2
    exact Option.some.inj e2
  have hlist : ∀ {ps cs : List ρ}, List.Forall₂ (fun p c => (p, c) ∈ ren) ps cs →
      cs = ps.map fun p => (Map.get? ren p).getD p := by
    intro ps cs hf
    induction hf with
    | nil => rfl
    | cons h1 _ ih => rw [List.map_cons, hφ h1, ← ih]
  have hget' : ∀ {p c}, (p, c) ∈ ren → ∃ b, h'.get? c = some b := by
    intro p c hm
    have : c ∈ l'.map Prod.fst := by rw [← hs.right]; exact List.mem_map_of_mem (f := Prod.snd) hm
    obtain ⟨x, hx, rfl⟩ := List.mem_map.1 this
    exact ⟨_, Forest.get? ht'.1 x hx⟩
  have hinst : ∀ x ∈ l, ∃ b, h'.get? ((Map.get? ren x.1).getD x.1) = some b ∧ b.className = x.2.className ∧
      b.isService = x.2.isService ∧ List.Forall₂ (fun p c => (p, c) ∈ ren) x.2.children b.children ∧
      ∀ n, SameProperty ren (x.2.properties.get? n) (b.properties.get? n) := by
    intro x hx
    obtain ⟨c, hc⟩ := hmem x.1 (List.mem_map_of_mem hx)
    obtain ⟨b, hb⟩ := hget' hc
    exact ⟨b, by rw [hφ hc]; exact hb, hs.inst _ _ _ _ hc (Forest.get? ht.1 x hx) hb⟩
  refine ⟨fun p => (Map.get? ren p).getD p, ht, hinj, hlist hs.roots, ?_, ?_⟩
  · intro x hx
    obtain ⟨b, h1, h2, h3, h4, _⟩ := hinst x hx
    exact ⟨b, h1, hlist h4, h2, by rw [h3]⟩
  · intro cls
    rw [classInsts_eq, classInsts_eq]
    apply sameClass_same
    intro n
    have hkeys : (mapList (fun p => (Map.get? ren p).getD p) h' l).map Prod.fst = ren.map Prod.snd := by
      have e1 : (mapList (fun p => (Map.get? ren p).getD p) h' l).map Prod.fst =
          (l.map Prod.fst).map fun p => (Map.get? ren p).getD p := by
        simp only [mapList, List.map_map]; rfl
      rw [e1, ← hs.left, List.map_map]
      exact List.map_congr_left fun x hx => hφ (c := x.2) hx
    have hall : List.Forall₂ (fun (i j : Inst ρ) => j.className = i.className ∧
        SameO (refNum l) (refNum (mapList (fun p => (Map.get? ren p).getD p) h' l)) (i.properties.get? n) (j.properties.get? n))
        (l.map Prod.snd) ((mapList (fun p => (Map.get? ren p).getD p) h' l).map Prod.snd) := by
      have : (mapList (fun p => (Map.get? ren p).getD p) h' l).map Prod.snd =
          l.map fun x => (h'.get? ((Map.get? ren x.1).getD x.1)).getD ⟨[], [], false, [], []⟩ := by
        simp only [mapList, List.map_map]; rfl
      rw [this, List.forall₂_map_left_iff, List.forall₂_map_right_iff, List.forall₂_same]
      intro x hx
      obtain ⟨b, h1, h2, _, _, h5⟩ := hinst x hx
      rw [h1]
      refine ⟨h2, ?_⟩
      have h5 := h5 n
      simp only [Option.getD_some]
      rcases e1 : x.2.properties.get? n with _ | v <;> rcases e2 : b.properties.get? n with _ | w <;> rw [e1, e2] at h5
      · trivial
      · exact absurd h5 id
      · exact absurd h5 id
      · show SameV _ _ v w
        have h5 : SameValue ren v w := h5
        by_cases hv : ∃ p, v = .reference p
        · obtain ⟨p, rfl⟩ := hv
          by_cases hw : ∃ q, w = .reference q
          · obtain ⟨q, rfl⟩ := hw
            refine .inr ⟨p, q, rfl, rfl, ?_⟩
            rcases h5 with ⟨a, c, rfl, rfl, hac⟩ | ⟨h1, h2⟩
            · have ha : a ∈ l.map Prod.fst := by rw [← hs.left]; exact List.mem_map_of_mem (f := Prod.fst) hac
              have := refNum_map (h' := h') hinj ha
              rw [hφ hac] at this
              exact this
            · rw [refNum_nowhere (L := l) (by rw [← hs.left]; exact h1), refNum_nowhere (by rw [hkeys]; exact h2)]
          · exfalso
            apply hw
            cases w <;> simp only [SameValue, reduceCtorEq] at h5
            exact ⟨_, rfl⟩
        · left
          refine ⟨?_, fun p e => hv ⟨p, e⟩⟩
          cases v <;> simp only [SameValue] at h5 <;> first | exact h5 | exact absurd ⟨_, rfl⟩ hv
    refine (forall₂_filter (p := fun i => decide (i.className = cls)) (q := fun j => decide (j.className = cls)) hall
      (fun x y h => by rw [h.1])).imp fun i j h => h.2

omit [DecidableEq ρ] in
theorem SameRef.symm {ren : List (ρ × ρ)} {p q : Option ρ} (h : SameRef ren p q) : SameRef (ren.map Prod.swap) q p := by
  rcases h with ⟨a, b, rfl, rfl, hm⟩ | ⟨h1, h2⟩
  · exact .inl ⟨b, a, rfl, rfl, List.mem_map.2 ⟨_, hm, rfl⟩⟩
  · right
    have e1 : (ren.map Prod.swap).map Prod.fst = ren.map Prod.snd := by rw [List.map_map]; rfl
    have e2 : (ren.map Prod.swap).map Prod.snd = ren.map Prod.fst := by rw [List.map_map]; rfl
    rw [e1, e2]
    exact ⟨h2, h1⟩

theorem SameTree.symm {h h' : Heap ρ} {ps ps' : List ρ} {l l' : Map ρ (Inst ρ)} {ren : List (ρ × ρ)}
    (hs : SameTree h ps l h' ps' l' ren) : SameTree h' ps' l' h ps l (ren.map Prod.swap) := by
  have hmem : ∀ {p c}, (c, p) ∈ ren.map Prod.swap ↔ (p, c) ∈ ren := by
    intro p c
    rw [List.mem_map]
    constructor
    · rintro ⟨⟨a, b⟩, hx, he⟩
      cases he; exact hx
    · intro hx; exact ⟨_, hx, rfl⟩
  have hf : ∀ {ps cs : List ρ}, List.Forall₂ (fun p c => (p, c) ∈ ren) ps cs →
      List.Forall₂ (fun p c => (p, c) ∈ ren.map Prod.swap) cs ps := by
    intro ps cs hf
    exact hf.flip.imp fun _ _ h => hmem.2 h
  refine ⟨by rw [List.map_map]; exact hs.right, by rw [List.map_map]; exact hs.left, hf hs.roots, ?_⟩
  intro p c a b hm ha hb
  obtain ⟨h1, h2, h3, h4⟩ := hs.inst c p b a (hmem.1 hm) hb ha
  refine ⟨h1.symm, h2.symm, hf h3, fun n => ?_⟩
  have h4 := h4 n
  rcases e1 : b.properties.get? n with _ | v <;> rcases e2 : a.properties.get? n with _ | w <;> rw [e1, e2] at h4
  · trivial
  · exact absurd h4 id
  · exact absurd h4 id
  · have h4 : SameValue ren v w := h4
    show SameValue _ w v
    by_cases hv : ∃ p, v = .reference p
    · obtain ⟨p, rfl⟩ := hv
      cases w <;> simp only [SameValue, reduceCtorEq] at h4
      exact SameRef.symm h4
    · have : v = w := by
        cases v <;> simp only [SameValue] at h4 <;> first | exact h4 | exact absurd ⟨_, rfl⟩ hv
      subst this
      cases v <;> simp only [SameValue] <;> exact absurd ⟨_, rfl⟩ hv

/-- Trees that differ only in where their instances are stored are written alike. -/
theorem encodeRoot_same (lz : LZ4) (u : Bool) (it it' : Iter) (srt srt' : Sorter) (hash : Bytes → Bytes) (place : Bool)
    {h h' : Heap ρ} {root root' : Root ρ} {l l' : Map ρ (Inst ρ)}
    {ren : List (ρ × ρ)} (ht : Trees h root.instances l) (ht' : Trees h' root'.instances l')
    (hs : SameTree h root.instances l h' root'.instances l' ren) (hn : l.length < 2 ^ 31)
    (hm : (if root'.metadata.length = 0 then ([] : List Chunk)
        else [⟨.metadata (srt'.run metaLess (it'.run [4] root'.metadata)), true⟩]) = (if root.metadata.length = 0 then []
        else [⟨.metadata (srt.run metaLess (it.run [4] root.metadata)), true⟩])) {b : Bytes}
    (hb : encodeRoot lz u it srt hash place h root = .ok b) : encodeRoot lz u it' srt' hash place h' root' = .ok b := by
  simp only [encodeRoot, Res.bind_eq_ok] at hb
  obtain ⟨f, hf, hb⟩ := hb
  have hf0 := hf
  simp only [codecEncode, instList_trees ht, Res.ok_bind, Res.bind_eq_ok] at hf0
  obtain ⟨⟨props, shared⟩, hprops, _⟩ := hf0
  obtain ⟨φ, ha⟩ := alike_same (place := place) (s0 := (shared.head?.map Prod.snd).getD []) ht ht' hs
  have hsh : SharedOk hash (UsedShared l) shared := by
    obtain ⟨names, hnn, hns, hnm, hcl⟩ := classList_eq it srt place (l.map Prod.snd)
    rw [hcl] at hprops
    exact (propChunks_ok (used := UsedShared l) hn (fun x hx n s hs => ⟨x, hx, n, hs⟩) names 0 [] shared props
      ⟨by simp, by simp⟩ hprops).2.1
  obtain ⟨f', rest, rest', c1, c2, c3, c4, c5, c6, c7, c8⟩ := ha.encode it it' srt srt' hash hn f hf (by
    intro props2 shared2 h2
    rw [hprops] at h2
    cases h2
    rintro ⟨a, s⟩ r hr
    have h1 := (hsh.1 (a, s) (by rw [hr]; simp)).1
    simp only at h1
    rw [hr, h1]
    rfl)
  rw [hm] at c7
  have hw : writeChunks lz u f'.chunks = writeChunks lz u f.chunks := by
    apply writeChunks_congr
    rw [c6, c7, List.map_append, List.map_append, c8]
  simp only [encodeRoot, c1, Res.ok_bind]
  simp only [encodeFile, c2, c3, c4, c5, hw] at hb ⊢
  exact hb

end Rbxl

import Verif.Rbxfile.Finite
import Verif.Rbxfile.CopyLemmas
/-!
# Copying: resolving the references, termination
-/
namespace Rbxfile
open Go Spec

/-- The instance a reference resolves to in `Copy`. -/
def target (crefs refs : References Nat) (r : Bytes) : Option Nat :=
  if (crefs.at r).isSome && !isEmptyReference r then crefs.at r else refs.at r

theorem resolveAll_spec {crefs refs : References Nat} :
    ∀ {prs : List (PropRef Nat)} {h : Heap Nat},
      (∀ x, ((resolveAll crefs refs prs h).get? x).isSome = (h.get? x).isSome) ∧
      ∀ x b, h.get? x = some b → ∃ b', (resolveAll crefs refs prs h).get? x = some b' ∧
        b' = { b with properties := b'.properties } ∧
        ∀ name, (b'.properties.get? name = b.properties.get? name ∧
            ∀ pr ∈ prs, pr.inst = some x → pr.property ≠ name) ∨
          ∃ pr ∈ prs, pr.inst = some x ∧ pr.property = name ∧
            b'.properties.get? name = some (.reference (target crefs refs pr.reference))
  | [], h => by
    refine ⟨fun x => rfl, fun x b hb => ⟨b, hb, rfl, fun name => .inl ⟨rfl, by simp⟩⟩⟩
  | pr :: prs, h => by
    have step : ∃ h1, resolveAll crefs refs (pr :: prs) h = resolveAll crefs refs prs h1 ∧
        (∀ x, (h1.get? x).isSome = (h.get? x).isSome) ∧
        ∀ x b, h.get? x = some b → ∃ b1, h1.get? x = some b1 ∧
          b1 = { b with properties := b1.properties } ∧
          ∀ name, b1.properties.get? name =
            if pr.inst = some x ∧ pr.property = name then
              some (.reference (target crefs refs pr.reference)) else b.properties.get? name := by
      refine ⟨_, rfl, ?_⟩
      cases hpi : pr.inst with
      | none =>
        simp only [References.resolve, hpi]
        refine ⟨fun x => by simp, fun x b hb => ⟨b, by simpa using hb, rfl, fun name => by simp⟩⟩
      | some c =>
        cases hc : h.get? c with
        | none =>
          simp only [References.resolve, hpi, hc]
          refine ⟨fun x => by simp, fun x b hb => ⟨b, by simpa using hb, rfl, fun name => ?_⟩⟩
          rw [if_neg]
          rintro ⟨e, _⟩
          cases e
          rw [hc] at hb; cases hb
        | some inst =>
          simp only [References.resolve, hpi, hc, Map.get?_set_self]
          constructor
          · intro x
            split <;> simp only [Map.get?_set] <;> split <;> simp_all
          · intro x b hb
            by_cases hxc : x = c
            · subst hxc
              rw [hc] at hb; cases hb
              by_cases hq : ((crefs.at pr.reference).isSome && !isEmptyReference pr.reference) = true
              · simp only [hq, if_true, Map.get?_set_self, Option.some.injEq, exists_eq_left']
                refine ⟨trivial, ?_⟩
                intro name
                simp only [Map.get?_set, target, hq, if_true, true_and, eq_comm]
              · simp only [hq, if_false, Map.get?_set_self, Option.some.injEq, exists_eq_left',
                  Bool.false_eq_true]
                refine ⟨trivial, ?_⟩
                intro name
                simp only [Map.get?_set, target, hq, true_and, if_false, Bool.false_eq_true]
                by_cases hn : name = pr.property
                · simp [hn]
                · simp [hn, Ne.symm hn]
            · refine ⟨b, ?_, rfl, ?_⟩
              · split <;> simp [Map.get?_set, hxc, hb]
              · intro name
                rw [if_neg]
                rintro ⟨e, _⟩
                exact hxc (Option.some.inj e).symm
    obtain ⟨h1, e1, k1, s1⟩ := step
    obtain ⟨k2, s2⟩ := resolveAll_spec (crefs := crefs) (refs := refs) (prs := prs) (h := h1)
    rw [e1]
    refine ⟨fun x => by rw [k2, k1], ?_⟩
    intro x b hb
    obtain ⟨b1, hb1, eb1, pb1⟩ := s1 x b hb
    obtain ⟨b2, hb2, eb2, pb2⟩ := s2 x b1 hb1
    refine ⟨b2, hb2, ?_, ?_⟩
    · rw [eb2]; simp only; rw [eb1]
    · intro name
      rcases pb2 name with ⟨h2, hno⟩ | ⟨pr', hm, h2⟩
      · rw [h2, pb1 name]
        by_cases hc : pr.inst = some x ∧ pr.property = name
        · rw [if_pos hc]
          exact .inr ⟨pr, List.mem_cons_self .., hc.1, hc.2, rfl⟩
        · rw [if_neg hc]
          refine .inl ⟨rfl, ?_⟩
          intro pr' hpr'
          rcases List.mem_cons.1 hpr' with rfl | hpr'
          · intro hi hn; exact hc ⟨hi, hn⟩
          · exact hno pr' hpr'
      · exact .inr ⟨pr', List.mem_cons_of_mem _ hm, h2⟩

theorem resolveAll_other {crefs refs : References Nat} {x : Nat} :
    ∀ {prs : List (PropRef Nat)} {h : Heap Nat}, (∀ pr ∈ prs, pr.inst ≠ some x) →
      (resolveAll crefs refs prs h).get? x = h.get? x
  | [], h, _ => rfl
  | pr :: prs, h, hn => by
    have h1 : ∀ (refs : References Nat) (h : Heap Nat),
        (refs.resolve pr h).2.get? x = h.get? x := by
      intro refs h
      have hx := hn pr (List.mem_cons_self ..)
      simp only [References.resolve]
      split
      · rfl
      · rename_i c hc
        split
        · rfl
        · exact Map.get?_set_ne _ _ (fun e => hx (by rw [hc, e]))
    simp only [resolveAll]
    rw [resolveAll_other (fun pr hp => hn pr (List.mem_cons_of_mem _ hp))]
    split
    · exact h1 _ _
    · rw [h1, h1]

/-- `retarget` as done by the code, with what `Value.Copy` does to other values. -/
def copied (ren : Map Nat Nat) : Value Nat → Value Nat
  | .reference q => retarget ren (.reference q)
  | v => v.copy

theorem copied_nonref {ren : Map Nat Nat} {v : Value Nat} (hv : ∀ q, v ≠ .reference q) :
    copied ren v = v.copy := by
  cases v <;> first | rfl | exact absurd rfl (hv _)

theorem renFrom_keys (n : Nat) (l : Map Nat (Inst Nat)) :
    (renFrom n l).map Prod.fst = l.map Prod.fst := by
  simp [renFrom, List.zipIdx_map_fst]

theorem renFrom_values (n : Nat) (l : Map Nat (Inst Nat)) :
    (renFrom n l).map Prod.snd = List.range' n l.length := by
  simp [renFrom, List.zipIdx_map_snd]

variable {gen : Nat → Bytes} {fuel : Nat} {it : Iter} {h : Heap Nat}

theorem good_start {next pos : Nat} (hb : ∀ x, next ≤ x → h.get? x = none) :
    Good h (copyStart h next pos) := by
  refine ⟨fun p a hp => ⟨a.reference, hp⟩, ?_, ?_⟩
  · intro p hp
    simp only [copyStart] at hp ⊢
    cases Nat.lt_or_ge p next with
    | inl hl => exact hl
    | inr hg => rw [hb p hg] at hp; cases hp
  · intro r p hr; simp [copyStart, References.at] at hr

/-- The result of copying, in terms of `copied`. -/
structure CopyResult (h : Heap Nat) (ps : List Nat) (l : Map Nat (Inst Nat))
    (h' : Heap Nat) (cs : List Nat) (ren : Map Nat Nat) : Prop where
  domain : ren.map Prod.fst = l.map Prod.fst
  fresh : ∀ p c, (p, c) ∈ ren → h.get? c = none
  distinct : (ren.map Prod.snd).Nodup
  roots : List.Forall₂ (fun p c => (p, c) ∈ ren) ps cs
  same : ∀ p c, (p, c) ∈ ren → ∃ a b, h.get? p = some a ∧ h'.get? c = some b ∧
    b.className = a.className ∧ b.isService = a.isService ∧
    List.Forall₂ (fun p c => (p, c) ∈ ren) a.children b.children ∧
    ∀ name, b.properties.get? name = (a.properties.get? name).map (copied ren)
  refs : ∀ p c a b, (p, c) ∈ ren → h'.get? p = some a → h'.get? c = some b →
    b.reference = a.reference ∧ isEmptyReference a.reference = false
  refsInj : ∀ p c p' c' a a', (p, c) ∈ ren → (p', c') ∈ ren → h'.get? p = some a →
    h'.get? p' = some a' → a.reference = a'.reference → p = p'
  source : ∀ p a, h.get? p = some a → ∃ r, h'.get? p = some { a with reference := r }
  onlyNew : ∀ x, (h'.get? x).isSome → (h.get? x).isSome ∨ x ∈ ren.map Prod.snd

theorem copyResult (hgen : ∀ k, isEmptyReference (gen k) = false) (ok : HeapOk h)
    {ps : List Nat} {l : Map Nat (Inst Nat)} (ht : Trees h ps l) {next pos depth : Nat}
    (hb : ∀ x, next ≤ x → h.get? x = none) {cs : List Nat} {s : CState}
    (e : copyList (copyInst gen fuel it depth) ps (copyStart h next pos) = .ok (cs, s)) :
    CopyResult h ps l (resolveAll s.crefs s.st.refs s.props s.st.heap) cs (renFrom next l) := by
  obtain ⟨hf, hok⟩ := ht
  have cp := copyList_copied (it := it) hgen ok hf (good_start (pos := pos) hb) hb e
  have hnx : (copyStart h next pos).next = next := rfl
  have cpn := cp.next
  obtain ⟨keys, spec⟩ := resolveAll_spec (crefs := s.crefs) (refs := s.st.refs) (prs := s.props)
    (h := s.st.heap)
  obtain ⟨new, n1, n2, n3⟩ := cp.props
  have n0 : s.props = new := by rw [n1]; simp [copyStart]
  have rok : (renFrom next l).Ok := by simp only [Map.Ok, renFrom_keys]; exact hok
  have hfresh : ∀ p c, (p, c) ∈ renFrom next l → h.get? c = none :=
    fun p c hm => hb c (renFrom_mem hm).2.1
  -- what references resolve to
  have htarget : ∀ q r, RefOf s.st.refs q r →
      some (Value.reference (target s.crefs s.st.refs r)) =
        some (copied (renFrom next l) (Value.reference q)) := by
    intro q r hr
    cases q with
    | none =>
      have : r = [] := hr.1 rfl
      subst this
      simp only [target, isEmptyReference, copied, retarget]
      cases hx : s.st.refs.at [] with
      | none => simp
      | some p => exact absurd (cp.good.refInv _ _ hx).1 (by decide)
    | some p =>
      have hp := hr.2 p rfl
      have hne := (cp.good.refInv _ _ hp).1
      simp only [copied, retarget, target, hne, Bool.not_false, Bool.and_true]
      cases hx : s.crefs.at r with
      | some c =>
        rcases cp.crefsA r c hx with h0 | ⟨p', hm, hr'⟩
        · simp [copyStart, References.at] at h0
        · rw [hp] at hr'
          cases hr'
          rw [Map.get?_of_mem rok hm]; simp
      | none =>
        cases hy : (renFrom next l).get? p with
        | none => simp [hp]
        | some c =>
          have := cp.crefsC hok p c (Map.mem_of_get? hy) r hp
          rw [hx] at this; cases this
  have hclone : ∀ p c, (p, c) ∈ renFrom next l → ∃ a b, h.get? p = some a ∧
      (resolveAll s.crefs s.st.refs s.props s.st.heap).get? c = some b ∧
      b.className = a.className ∧ b.isService = a.isService ∧
      List.Forall₂ (fun p c => (p, c) ∈ renFrom next l) a.children b.children ∧
      (∀ name, b.properties.get? name = (a.properties.get? name).map (copied (renFrom next l))) ∧
      s.st.refs.at b.reference = some p := by
    intro p c hm
    obtain ⟨a, b, h1, h2, h3, h4, h5, h6, h7⟩ := cp.clones p c hm
    obtain ⟨b', g1, g2, g3⟩ := spec c b h2
    have e1 : b'.className = b.className := (congrArg (fun (x : Inst Nat) => x.className) g2).trans rfl
    have e2 : b'.isService = b.isService := (congrArg (fun (x : Inst Nat) => x.isService) g2).trans rfl
    have e3 : b'.children = b.children := (congrArg (fun (x : Inst Nat) => x.children) g2).trans rfl
    have e4 : b'.reference = b.reference := (congrArg (fun (x : Inst Nat) => x.reference) g2).trans rfl
    refine ⟨a, b', h1, g1, by rw [e1, h3], by rw [e2, h4], by rw [e3]; exact h5, ?_, by rw [e4]; exact h7⟩
    intro name
    rcases g3 name with ⟨k1, k2⟩ | ⟨pr, k1, k2, k3, k4⟩
    · rw [k1, h6 name]
      cases ha : a.properties.get? name with
      | none => rfl
      | some v =>
        by_cases hv : ∃ q, v = .reference q
        · obtain ⟨q, rfl⟩ := hv
          obtain ⟨x, hx, hx1, hx2⟩ := n3 p c a name q hm h1 ha
          exact absurd hx2 (k2 x (by rw [n0]; exact hx) hx1)
        · have hv' : ∀ q, v ≠ .reference q := fun q e => hv ⟨q, e⟩
          rw [initial_nonref hv']; simp [copied_nonref hv']
    · rw [k4]
      obtain ⟨p', c', a', q, m1, m2, m3, m4, m5⟩ := n2 pr (by rw [← n0]; exact k1)
      rw [k2] at m3
      cases m3
      have hpp : p' = p := by
        have h1 := List.mem_zipIdx m1
        have h2 := List.mem_zipIdx hm
        exact h1.2.2.trans h2.2.2.symm
      subst hpp
      rw [h1] at m2; cases m2
      rw [← k3, m4, htarget q _ m5]; rfl
  refine ⟨renFrom_keys .., hfresh, ?_, cp.roots, ?_, ?_, ?_, ?_, ?_⟩
  · rw [renFrom_values]; exact List.nodup_range'
  · intro p c hm
    obtain ⟨a, b, h1, h2, h3, h4, h5, h6, _⟩ := hclone p c hm
    exact ⟨a, b, h1, h2, h3, h4, h5, h6⟩
  · intro p c a b hm ha hb'
    obtain ⟨_, b', h1, h2, _, _, _, _, h7⟩ := hclone p c hm
    rw [hb'] at h2; cases h2
    obtain ⟨k1, k2, a2, k3, k4⟩ := cp.good.refInv _ _ h7
    obtain ⟨a3, g1, g2, _⟩ := spec p a2 k3
    rw [ha] at g1; cases g1
    have e4 : a.reference = a2.reference := (congrArg (fun (x : Inst Nat) => x.reference) g2).trans rfl
    rw [e4, k4]; exact ⟨rfl, k1⟩
  · intro p c p' c' a a' hm hm' ha ha' hr
    have key : ∀ p c a, (p, c) ∈ renFrom next l →
        (resolveAll s.crefs s.st.refs s.props s.st.heap).get? p = some a →
        s.st.refs.at a.reference = some p := by
      intro p c a hm ha
      obtain ⟨_, b', h1, h2, _, _, _, _, h7⟩ := hclone p c hm
      obtain ⟨k1, k2, a2, k3, k4⟩ := cp.good.refInv _ _ h7
      obtain ⟨a3, g1, g2, _⟩ := spec p a2 k3
      rw [ha] at g1; cases g1
      have e4 : a.reference = a2.reference := (congrArg (fun (x : Inst Nat) => x.reference) g2).trans rfl
      rw [e4, k4]; exact h7
    have h1 := key p c a hm ha
    have h2 := key p' c' a' hm' ha'
    rw [hr, h2] at h1
    exact (Option.some.inj h1).symm
  · intro p a ha
    obtain ⟨r, hr⟩ := cp.good.agree p a ha
    refine ⟨r, ?_⟩
    rw [resolveAll_other]
    · exact hr
    · intro pr hpr hi
      obtain ⟨p', c', a', q, m1, m2, m3, m4, m5⟩ := n2 pr (by rw [← n0]; exact hpr)
      rw [hi] at m3
      cases m3
      rw [hfresh _ _ m1] at ha; cases ha
  · intro x hx
    rw [keys x] at hx
    rcases cp.onlyNew x hx with h1 | ⟨h1, h2⟩
    · exact .inl h1
    · refine .inr ?_
      rw [renFrom_values, List.mem_range']
      rw [hnx] at h1 cpn
      exact ⟨x - next, by omega, by omega⟩

/-! ## Termination -/

/-- The number of references that copying may need. -/
def weight (l : Map Nat (Inst Nat)) : Nat := (l.map fun x => 1 + x.2.properties.length).sum

theorem copyProps_total {n : Nat} (hf : Fresh gen n fuel) (hgen : ∀ k, isEmptyReference (gen k) = false)
    {c : Nat} : ∀ {l : List (Bytes × Value Nat)} {s : CState},
      (s.st.heap.get? c).isSome →
      (∀ name q, (name, Value.reference (some q)) ∈ l → (s.st.heap.get? q).isSome) →
      s.st.refs.length + l.length ≤ n →
      ∃ s', copyProps gen fuel c l s = .ok s' ∧ s'.st.refs.length ≤ s.st.refs.length + l.length
  | [], s, _, _, _ => ⟨s, rfl, by simp⟩
  | (name, v) :: l, s, hc, hq, hn => by
    simp only [List.length_cons] at hn ⊢
    have hq' : ∀ name q, (name, Value.reference (some q)) ∈ l → (s.st.heap.get? q).isSome :=
      fun n q hm => hq n q (List.mem_cons_of_mem _ hm)
    by_cases hv : ∃ q, v = .reference q
    · obtain ⟨q, rfl⟩ := hv
      obtain ⟨r, st, e, hl⟩ := getRef_total hf (st := s.st) (q := q) (by omega)
        (fun p hp => hq name p (by rw [hp]; exact List.mem_cons_self ..))
      have hk : ∀ y, (st.heap.get? y).isSome = (s.st.heap.get? y).isSome := by
        intro y
        cases q with
        | none =>
          simp only [getRef, Res.ok.injEq, Prod.mk.injEq] at e
          rw [← e.2]
        | some q => exact (getRef_spec hgen e).keys y
      obtain ⟨s', e', hl'⟩ := copyProps_total hf hgen (c := c) (l := l)
        (s := { s with st := st, props := s.props ++ [⟨some c, name, r⟩] })
        (by simpa [hk] using hc) (fun n q hm => by simp only [hk]; exact hq' n q hm)
        (by simp only; omega)
      refine ⟨s', ?_, by simp only at hl'; omega⟩
      simp only [copyProps, e, Res.ok_bind]
      exact e'
    · have hv' : ∀ q, v ≠ .reference q := fun q e => hv ⟨q, e⟩
      rw [copyProps_ref hv']
      obtain ⟨b, hb⟩ := Option.isSome_iff_exists.1 hc
      rw [CState.update_eq _ hb]
      obtain ⟨s', e', hl'⟩ := copyProps_total hf hgen (c := c) (l := l)
        (s := CState.mk (RefState.mk (s.st.heap.set c
          { b with properties := b.properties.set name v.copy }) s.st.refs s.st.pos) s.next s.crefs
          s.props)
        (by simp) (fun n q hm => by
          simp only [Map.get?_set]
          split
          · rfl
          · exact hq' n q hm) (by simp only; omega)
      exact ⟨s', e', by simp only at hl'; omega⟩

theorem copyList_total {n : Nat} (hfr : Fresh gen n fuel)
    (hgen : ∀ k, isEmptyReference (gen k) = false) (ok : HeapOk h)
    {ps : List Nat} {l : Map Nat (Inst Nat)} (hf : Forest h ps l) :
    ∀ {depth : Nat} {s : CState} {anc : List Nat}, anc.Nodup → (∀ q ∈ anc, (h.get? q).isSome ∧ q ∉ l.map Prod.fst) →
      h.length + 1 ≤ depth + anc.length → Good h s → (∀ x, s.next ≤ x → h.get? x = none) → s.st.refs.length + weight l ≤ n →
      ∃ cs s', copyList (copyInst gen fuel it depth) ps s = .ok (cs, s') ∧
        s'.st.refs.length ≤ s.st.refs.length + weight l := by
  induction hf with
  | nil =>
    intro depth s anc _ _ _ g _ _
    exact ⟨[], s, rfl, by simp [weight]⟩
  | @cons p ps inst below rest hp hbelow hrest ihb ihr =>
    intro depth s anc hnd hanc hd g hnext hn
    have hlong := path_length hnd fun q hq => (hanc q hq).1
    have hw : weight ((p, inst) :: (below ++ rest)) =
        1 + inst.properties.length + (weight below + weight rest) := by
      simp [weight, List.sum_append]
    rw [hw] at hn ⊢
    cases depth with
    | zero => omega
    | succ depth =>
    have hcn : h.get? s.next = none := hnext _ (Nat.le_refl _)
    have hsome : ∀ q, (h.get? q).isSome → (s.st.heap.get? q).isSome := by
      intro q hq
      obtain ⟨a, ha⟩ := Option.isSome_iff_exists.1 hq
      obtain ⟨r, hr⟩ := g.agree q a ha
      simp [hr]
    obtain ⟨r0, hr0⟩ := g.agree p inst hp
    obtain ⟨r, st, e3, hl3⟩ := getRef_total hfr (st := s.st) (q := some p) (by omega)
      (fun p' e' => by cases e'; exact hsome p (by simp [hp]))
    have sp := getRef_spec hgen e3
    have hlen : (it.run [p] inst.properties).length = inst.properties.length :=
      (it.perm [p] inst.properties).length_eq
    obtain ⟨s1, e4, hl4⟩ := copyProps_total hfr hgen (c := s.next)
      (l := it.run [p] inst.properties)
      (s := CState.mk (RefState.mk (st.heap.set s.next
        (Inst.mk inst.className r inst.isService [] [])) st.refs st.pos)
        (s.next + 1) (s.crefs.set r (some s.next)) s.props)
      (by simp) (fun name q hm => by
        simp only [Map.get?_set]
        split
        · rfl
        · rw [sp.keys]
          exact hsome q (ok.closed p inst name q hp ((it.perm [p] inst.properties).mem_iff.1 hm)))
      (by simp only [hlen]; omega)
    simp only [hlen] at hl4
    have g1 : Good h s1 ∧ s1.next = s.next + 1 := by
      obtain ⟨g0, ro, rm, fr, rne⟩ := getRef_good hgen g (q := some p)
        (fun p' e' => by cases e'; simp [hp]) e3 s.props
      have gA := g0.alloc (c := s.next) hcn rfl (Inst.mk inst.className r inst.isService [] [])
        (s.crefs.set r (some s.next))
      have hk := ok.maps p inst hp
      have hperm := it.perm [p] inst.properties
      have pc := copyProps_good hgen hcn gA (by simp)
        ((hperm.map Prod.fst).nodup_iff.2 hk)
        (fun name q hm => ok.closed p inst name q hp (hperm.mem_iff.1 hm)) e4
      exact ⟨pc.good, pc.next⟩
    obtain ⟨g1, n1⟩ := g1
    obtain ⟨cc, s2, e5, hl5⟩ := ihb (depth := depth) (s := s1) (anc := p :: anc)
      (List.nodup_cons.2 ⟨fun hm => (hanc p hm).2 (by simp), hnd⟩) (by
        intro q hq
        rcases List.mem_cons.1 hq with rfl | hq
        · exact ⟨by rw [hp]; rfl, forest_acyclic hp hbelow⟩
        · exact ⟨(hanc q hq).1, fun hm => (hanc q hq).2 (by
            simp only [List.map_cons, List.map_append, List.mem_cons, List.mem_append]; exact .inr (.inl hm))⟩)
      (by rw [List.length_cons]; omega) g1 (fun x hx => hnext x (by omega)) (by omega)
    have cb := copyList_copied (it := it) hgen ok hbelow g1 (fun x hx => hnext x (by omega)) e5
    have n2 : s2.next = s.next + 1 + below.length := by rw [cb.next, n1]
    have hb2 : ∃ b, s2.st.heap.get? s.next = some b := by
      rw [cb.frame _ hcn (by omega)]
      have hkeys := copyProps_keys hgen (by simp) e4 s.next
      simp only [Map.get?_set_self, Option.isSome_some] at hkeys
      exact Option.isSome_iff_exists.1 hkeys
    obtain ⟨b, hb2⟩ := hb2
    have g2 := cb.good.update hcn hb2 { b with children := cc }
    obtain ⟨cs, s4, e6, hl6⟩ := ihr (depth := depth + 1) (anc := anc) hnd
      (fun q hq => ⟨(hanc q hq).1, fun hm => (hanc q hq).2 (by
        simp only [List.map_cons, List.map_append, List.mem_cons, List.mem_append]; exact .inr (.inr hm))⟩) hd g2
      (fun x hx => hnext x (by simp only at hx; omega)) (by simp only; omega)
    refine ⟨s.next :: cs, s4, ?_, by simp only at hl6; omega⟩
    have e1 : copyInst gen fuel it (depth + 1) p s = .ok (s.next,
        { s2 with st := { s2.st with heap := s2.st.heap.set s.next { b with children := cc } } }) := by
      simp only [copyInst, hr0, e3, Res.ok_bind]
      rw [e4]
      simp only [Res.ok_bind]
      rw [e5]
      simp only [Res.ok_bind, CState.update_eq _ hb2, Res.pure_eq]
    simp only [copyList]
    rw [e1]
    simp only [Res.ok_bind]
    rw [e6]
    rfl

end Rbxfile

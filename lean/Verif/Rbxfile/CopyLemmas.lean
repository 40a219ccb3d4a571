import Verif.Rbxfile.Copy
import Verif.Spec.Copy
/-!
# Lemmas about copying instances
-/
namespace Rbxfile
open Go Spec

/-- The invariant of the copying loops; `h` is the heap at the beginning. -/
structure Good (h : Heap Nat) (s : CState) : Prop where
  agree : ∀ p a, h.get? p = some a → ∃ r, s.st.heap.get? p = some { a with reference := r }
  bound : ∀ p, (s.st.heap.get? p).isSome → p < s.next
  refInv : ∀ r p, s.st.refs.at r = some p → isEmptyReference r = false ∧ (h.get? p).isSome ∧
    ∃ a, s.st.heap.get? p = some a ∧ a.reference = r

/-- `r` is the reference string of the pointer `q`. -/
def RefOf (refs : References Nat) (q : Option Nat) (r : Bytes) : Prop :=
  (q = none → r = []) ∧ ∀ p, q = some p → refs.at r = some p

theorem RefOf.mono {refs refs' : References Nat} {q : Option Nat} {r : Bytes} (h : RefOf refs q r)
    (hm : ∀ r p, refs.at r = some p → refs'.at r = some p) : RefOf refs' q r :=
  ⟨h.1, fun p hp => hm _ _ (h.2 p hp)⟩

theorem Good.refs_inj {h : Heap Nat} {s : CState} (g : Good h s) {r r' : Bytes} {p : Nat}
    (h1 : s.st.refs.at r = some p) (h2 : s.st.refs.at r' = some p) : r = r' := by
  obtain ⟨_, _, a, ha, e⟩ := g.refInv r p h1
  obtain ⟨_, _, a', ha', e'⟩ := g.refInv r' p h2
  rw [ha] at ha'
  cases ha'
  rw [← e, ← e']

variable {gen : Nat → Bytes} {fuel : Nat} {it : Iter} {h : Heap Nat}

theorem getRef_good (hgen : ∀ k, isEmptyReference (gen k) = false) {s : CState} (g : Good h s)
    {q : Option Nat} (hq : ∀ p, q = some p → (h.get? p).isSome) {r : Bytes} {st' : RefState Nat}
    (e : getRef gen fuel s.st q = .ok (r, st')) (props : List (PropRef Nat)) :
    Good h { s with st := st', props := props } ∧ RefOf st'.refs q r ∧
    (∀ r p, s.st.refs.at r = some p → st'.refs.at r = some p) ∧
    (∀ c, h.get? c = none → st'.heap.get? c = s.st.heap.get? c) ∧
    (∀ p, q = some p → isEmptyReference r = false) := by
  cases q with
  | none =>
    simp only [getRef, Res.ok.injEq, Prod.mk.injEq] at e
    obtain ⟨rfl, rfl⟩ := e
    exact ⟨⟨g.agree, g.bound, g.refInv⟩, ⟨fun _ => rfl, by simp⟩, fun _ _ h => h, fun _ _ => rfl,
      by simp⟩
  | some p =>
    have sp := getRef_spec hgen e
    obtain ⟨a, ha, ha'⟩ := sp.self
    refine ⟨⟨?_, ?_, ?_⟩, ⟨by simp, ?_⟩, sp.mono, ?_, fun _ _ => sp.nonempty⟩
    · intro p' a' hp'
      obtain ⟨r', hr'⟩ := g.agree p' a' hp'
      by_cases hpp : p' = p
      · subst hpp
        rw [ha] at hr'
        cases hr'
        exact ⟨r, ha'⟩
      · exact ⟨r', by rw [← hr']; exact sp.others p' hpp⟩
    · intro p' hp'
      exact g.bound p' (by rw [← sp.keys p']; exact hp')
    · intro r' p' hr'
      rcases sp.only r' p' hr' with hx | ⟨rfl, rfl⟩
      · obtain ⟨h1, h2, b, hb, hbr⟩ := g.refInv r' p' hx
        refine ⟨h1, h2, ?_⟩
        by_cases hpp : p' = p
        · subst hpp
          rw [ha] at hb
          cases hb
          have : r = a.reference := sp.kept a ha (by rw [hbr]; exact h1) (.inl (by rw [hbr]; exact hx))
          exact ⟨_, ha', by rw [this]; exact hbr⟩
        · exact ⟨b, by rw [← hb]; exact sp.others p' hpp, hbr⟩
      · exact ⟨sp.nonempty, hq p' rfl, _, ha', rfl⟩
    · intro p' e'; cases e'; exact sp.marked
    · intro c hc
      apply sp.others
      rintro rfl
      have := hq c rfl
      rw [hc] at this
      cases this

theorem CState.update_eq {s : CState} {c : Nat} {b : Inst Nat} (f : Inst Nat → Inst Nat)
    (hb : s.st.heap.get? c = some b) :
    s.update c f = { s with st := { s.st with heap := s.st.heap.set c (f b) } } := by
  simp [CState.update, hb]

/-- Changing a clone keeps the invariant. -/
theorem Good.update {s : CState} (g : Good h s) {c : Nat} (hc : h.get? c = none) {b : Inst Nat}
    (hb : s.st.heap.get? c = some b) (b' : Inst Nat) :
    Good h { s with st := { s.st with heap := s.st.heap.set c b' } } := by
  refine ⟨?_, ?_, ?_⟩
  · intro p a hp
    obtain ⟨r, hr⟩ := g.agree p a hp
    refine ⟨r, ?_⟩
    simp only [Map.get?_set]
    split
    · subst_vars; rw [hp] at hc; cases hc
    · exact hr
  · intro p hp
    simp only [Map.get?_set] at hp
    split at hp
    · subst_vars; exact g.bound _ (by simp [hb])
    · exact g.bound p hp
  · intro r p hp
    obtain ⟨h1, h2, a, ha, har⟩ := g.refInv r p hp
    refine ⟨h1, h2, a, ?_, har⟩
    simp only [Map.get?_set]
    split
    · subst_vars; rw [hc] at h2; cases h2
    · exact ha

/-- Allocating a clone keeps the invariant. -/
theorem Good.alloc {s : CState} (g0 : Good h s) {c : Nat} (hcn : h.get? c = none) (hc : s.next = c)
    (b : Inst Nat) (crefs : References Nat) :
    Good h (CState.mk (RefState.mk (s.st.heap.set c b) s.st.refs s.st.pos) (c + 1) crefs s.props) := by
  refine ⟨?_, ?_, ?_⟩
  · intro p' a hp'
    obtain ⟨r', hr'⟩ := g0.agree p' a hp'
    refine ⟨r', ?_⟩
    simp only [Map.get?_set]
    split
    · subst_vars; rw [hp'] at hcn; cases hcn
    · exact hr'
  · intro p' hp'
    simp only [Map.get?_set] at hp'
    split at hp'
    · subst_vars; simp
    · have := g0.bound p' hp'
      simp only at this ⊢; omega
  · intro r' p' hr'
    obtain ⟨h1, h2, a, ha, har⟩ := g0.refInv r' p' hr'
    refine ⟨h1, h2, a, ?_, har⟩
    simp only [Map.get?_set]
    split
    · subst_vars; rw [hcn] at h2; cases h2
    · exact ha

/-- What is stored in the clone before references are resolved. -/
def initial : Option (Value Nat) → Option (Value Nat) → Option (Value Nat)
  | some (.reference _), old => old
  | some v, _ => some v.copy
  | none, old => old

structure PropsCopied (h : Heap Nat) (c : Nat) (l : List (Bytes × Value Nat)) (s s' : CState) :
    Prop where
  good : Good h s'
  next : s'.next = s.next
  crefs : s'.crefs = s.crefs
  refs : ∀ r p, s.st.refs.at r = some p → s'.st.refs.at r = some p
  frame : ∀ x, h.get? x = none → x ≠ c → s'.st.heap.get? x = s.st.heap.get? x
  clone : ∀ b, s.st.heap.get? c = some b → ∃ b', s'.st.heap.get? c = some b' ∧
    b' = { b with properties := b'.properties } ∧
    ∀ name, b'.properties.get? name = initial (Map.get? l name) (b.properties.get? name)
  props : ∃ new, s'.props = s.props ++ new ∧
    (∀ x ∈ new, ∃ q, x.inst = some c ∧ (x.property, Value.reference q) ∈ l ∧
      RefOf s'.st.refs q x.reference) ∧
    (∀ name q, (name, Value.reference q) ∈ l → ∃ x ∈ new, x.inst = some c ∧ x.property = name)

theorem copyProps_ref {c : Nat} {name : Bytes} {v : Value Nat} {l : List (Bytes × Value Nat)}
    {s : CState} (hv : ∀ q, v ≠ .reference q) : copyProps gen fuel c ((name, v) :: l) s =
    copyProps gen fuel c l (s.update c fun b => { b with properties := b.properties.set name v.copy }) := by
  cases v <;> first | rfl | exact absurd rfl (hv _)

theorem initial_nonref {v : Value Nat} {old : Option (Value Nat)} (hv : ∀ q, v ≠ .reference q) :
    initial (some v) old = some v.copy := by
  cases v <;> first | rfl | exact absurd rfl (hv _)

theorem copyProps_good (hgen : ∀ k, isEmptyReference (gen k) = false) {c : Nat}
    (hc : h.get? c = none) :
    ∀ {l : List (Bytes × Value Nat)} {s s' : CState}, Good h s → (s.st.heap.get? c).isSome →
      (l.map Prod.fst).Nodup → (∀ name q, (name, Value.reference (some q)) ∈ l → (h.get? q).isSome) →
      copyProps gen fuel c l s = .ok s' → PropsCopied h c l s s'
  | [], s, s', g, _, _, _, e => by
    simp only [copyProps, Res.ok.injEq] at e
    subst e
    exact ⟨g, rfl, rfl, fun _ _ h => h, fun _ _ _ => rfl, fun b hb => ⟨b, hb, rfl, fun _ => rfl⟩,
      [], by simp, by simp, by simp⟩
  | (name, v) :: l, s, s', g, hs, hn, hq, e => by
    simp only [List.map_cons, List.nodup_cons] at hn
    have hq' : ∀ name q, (name, Value.reference (some q)) ∈ l → (h.get? q).isSome :=
      fun n q hm => hq n q (List.mem_cons_of_mem _ hm)
    have hname : Map.get? l name = none := Map.get?_eq_none.2 hn.1
    by_cases hv : ∃ q, v = .reference q
    · obtain ⟨q, rfl⟩ := hv
      simp only [copyProps] at e
      obtain ⟨⟨r, st⟩, e1, e2⟩ := Res.bind_eq_ok.1 e
      obtain ⟨g1, ro, rm, fr, _⟩ := getRef_good hgen g
        (fun p hp => hq name p (by rw [hp]; exact List.mem_cons_self ..)) e1
        (s.props ++ [⟨some c, name, r⟩])
      have ih := copyProps_good hgen hc g1 (by simpa [fr c hc] using hs) hn.2 hq' e2
      obtain ⟨new, p1, p2, p3⟩ := ih.props
      refine ⟨ih.good, ih.next, ih.crefs, fun r p hp => ih.refs r p (rm r p hp), ?_, ?_,
        ⟨some c, name, r⟩ :: new, ?_, ?_, ?_⟩
      · intro x hx hxc
        rw [ih.frame x hx hxc]; exact fr x hx
      · intro b hb
        obtain ⟨b', h1, h2, h3⟩ := ih.clone b (by rw [← hb]; exact fr c hc)
        refine ⟨b', h1, h2, ?_⟩
        intro n
        rw [h3 n]
        simp only [Map.get?]
        split
        · subst_vars; rw [hname]; rfl
        · rfl
      · rw [p1]; simp
      · intro x hx
        rcases List.mem_cons.1 hx with rfl | hx
        · exact ⟨q, rfl, List.mem_cons_self .., ro.mono ih.refs⟩
        · obtain ⟨q', a, b, c'⟩ := p2 x hx
          exact ⟨q', a, List.mem_cons_of_mem _ b, c'⟩
      · intro n q' hm
        rcases List.mem_cons.1 hm with e | hm
        · cases e; exact ⟨_, List.mem_cons_self .., rfl, rfl⟩
        · obtain ⟨x, hx, a, b⟩ := p3 n q' hm
          exact ⟨x, List.mem_cons_of_mem _ hx, a, b⟩
    · have hv' : ∀ q, v ≠ .reference q := fun q e => hv ⟨q, e⟩
      rw [copyProps_ref hv'] at e
      obtain ⟨b, hb⟩ := Option.isSome_iff_exists.1 hs
      rw [CState.update_eq _ hb] at e
      have ih := copyProps_good hgen hc (g.update hc hb _) (by simp) hn.2 hq' e
      obtain ⟨new, p1, p2, p3⟩ := ih.props
      refine ⟨ih.good, ih.next, ih.crefs, ih.refs, ?_, ?_, new, p1, ?_, ?_⟩
      · intro x hx hxc
        rw [ih.frame x hx hxc]
        exact Map.get?_set_ne _ _ hxc
      · intro b0 hb0
        rw [hb] at hb0
        cases hb0
        obtain ⟨b', h1, h2, h3⟩ := ih.clone _ (Map.get?_set_self _ _ _)
        refine ⟨b', h1, ?_, ?_⟩
        · rw [h2]
        · intro n
          rw [h3 n]
          simp only [Map.get?, Map.get?_set]
          by_cases hnn : name = n
          · subst hnn
            simp [hname, initial]
          · simp [hnn, Ne.symm hnn]
      · intro x hx
        obtain ⟨q', a, b, c'⟩ := p2 x hx
        exact ⟨q', a, List.mem_cons_of_mem _ b, c'⟩
      · intro n q' hm
        rcases List.mem_cons.1 hm with e | hm
        · cases e; exact absurd rfl (hv' q')
        · exact p3 n q' hm

/-- The pairs of originals and copies: copies are allocated in the order of the list. -/
def renFrom (n : Nat) (l : Map Nat (Inst Nat)) : Map Nat Nat := (l.map Prod.fst).zipIdx n

theorem renFrom_append (n : Nat) (a b : Map Nat (Inst Nat)) :
    renFrom n (a ++ b) = renFrom n a ++ renFrom (n + a.length) b := by
  simp [renFrom, List.zipIdx_append]

theorem renFrom_cons (n p : Nat) (a : Inst Nat) (l : Map Nat (Inst Nat)) :
    renFrom n ((p, a) :: l) = (p, n) :: renFrom (n + 1) l := by
  simp [renFrom]

theorem renFrom_mem {n p c : Nat} {l : Map Nat (Inst Nat)} (h : (p, c) ∈ renFrom n l) :
    p ∈ l.map Prod.fst ∧ n ≤ c ∧ c < n + l.length := by
  have := List.mem_zipIdx h
  simp only [List.length_map] at this
  refine ⟨?_, this.1, by omega⟩
  rw [this.2.2]; exact List.getElem_mem _

structure Copied (h : Heap Nat) (s s' : CState) (ps cs : List Nat) (l : Map Nat (Inst Nat)) :
    Prop where
  good : Good h s'
  next : s'.next = s.next + l.length
  refs : ∀ r p, s.st.refs.at r = some p → s'.st.refs.at r = some p
  frame : ∀ x, h.get? x = none → x < s.next → s'.st.heap.get? x = s.st.heap.get? x
  roots : List.Forall₂ (fun p c => (p, c) ∈ renFrom s.next l) ps cs
  clones : ∀ p c, (p, c) ∈ renFrom s.next l → ∃ a b, h.get? p = some a ∧
    s'.st.heap.get? c = some b ∧ b.className = a.className ∧ b.isService = a.isService ∧
    List.Forall₂ (fun p c => (p, c) ∈ renFrom s.next l) a.children b.children ∧
    (∀ name, b.properties.get? name = initial (a.properties.get? name) none) ∧
    s'.st.refs.at b.reference = some p
  crefsA : ∀ r c, s'.crefs.at r = some c → s.crefs.at r = some c ∨
    ∃ p, (p, c) ∈ renFrom s.next l ∧ s'.st.refs.at r = some p
  crefsB : ∀ r p c, s.crefs.at r = some c → s.st.refs.at r = some p → p ∉ l.map Prod.fst →
    s'.crefs.at r = some c
  crefsC : l.Ok → ∀ p c, (p, c) ∈ renFrom s.next l → ∀ r, s'.st.refs.at r = some p →
    s'.crefs.at r = some c
  props : ∃ new, s'.props = s.props ++ new ∧
    (∀ x ∈ new, ∃ p c a q, (p, c) ∈ renFrom s.next l ∧ h.get? p = some a ∧ x.inst = some c ∧
      a.properties.get? x.property = some (Value.reference q) ∧ RefOf s'.st.refs q x.reference) ∧
    (∀ p c a name q, (p, c) ∈ renFrom s.next l → h.get? p = some a →
      a.properties.get? name = some (Value.reference q) →
      ∃ x ∈ new, x.inst = some c ∧ x.property = name)
  onlyNew : ∀ x, (s'.st.heap.get? x).isSome → (s.st.heap.get? x).isSome ∨
    (s.next ≤ x ∧ x < s'.next)

/-- Growth of the heap during the properties. -/
theorem copyProps_keys : ∀ {c : Nat} {l : List (Bytes × Value Nat)} {s s' : CState},
    (∀ k, isEmptyReference (gen k) = false) →
    (s.st.heap.get? c).isSome → copyProps gen fuel c l s = .ok s' →
    ∀ x, (s'.st.heap.get? x).isSome = (s.st.heap.get? x).isSome
  | c, [], s, s', _, _, e, x => by
    simp only [copyProps, Res.ok.injEq] at e
    subst e; rfl
  | c, (name, v) :: l, s, s', hgen, hc, e, x => by
    by_cases hv : ∃ q, v = .reference q
    · obtain ⟨q, rfl⟩ := hv
      simp only [copyProps] at e
      obtain ⟨⟨r, st⟩, e1, e2⟩ := Res.bind_eq_ok.1 e
      have hk : ∀ y, (st.heap.get? y).isSome = (s.st.heap.get? y).isSome := by
        intro y
        cases q with
        | none =>
          simp only [getRef, Res.ok.injEq, Prod.mk.injEq] at e1
          rw [← e1.2]
        | some q => exact (getRef_spec hgen e1).keys y
      rw [copyProps_keys hgen (by simpa [hk c] using hc) e2 x]
      exact hk x
    · have hv' : ∀ q, v ≠ .reference q := fun q e => hv ⟨q, e⟩
      rw [copyProps_ref hv'] at e
      obtain ⟨b, hb⟩ := Option.isSome_iff_exists.1 hc
      rw [CState.update_eq _ hb] at e
      rw [copyProps_keys hgen (by simp) e x]
      simp only [Map.get?_set]
      split
      · subst_vars; simp [hb]
      · rfl

theorem copyList_copied (hgen : ∀ k, isEmptyReference (gen k) = false) (ok : HeapOk h)
    {ps : List Nat} {l : Map Nat (Inst Nat)} (hf : Forest h ps l) :
    ∀ {depth : Nat} {s s' : CState} {cs : List Nat}, Good h s → (∀ x, s.next ≤ x → h.get? x = none) →
      copyList (copyInst gen fuel it depth) ps s = .ok (cs, s') → Copied h s s' ps cs l := by
  induction hf with
  | nil =>
    intro depth s s' cs g _ e
    simp only [copyList, Res.ok.injEq, Prod.mk.injEq] at e
    obtain ⟨rfl, rfl⟩ := e
    exact ⟨g, by simp, fun _ _ h => h, fun _ _ _ => rfl, .nil, by simp [renFrom],
      fun r c hr => .inl hr, fun r p c hr _ _ => hr, by simp [renFrom],
      ⟨[], by simp, by simp, by simp [renFrom]⟩, fun x hx => .inl hx⟩
  | @cons p ps inst below rest hp hbelow hrest ihb ihr =>
    intro depth s s' cs g hnext e
    simp only [copyList] at e
    obtain ⟨⟨c, s3⟩, e1, e⟩ := Res.bind_eq_ok.1 e
    obtain ⟨⟨cs', s4⟩, e2, e⟩ := Res.bind_eq_ok.1 e
    simp only [Res.pure_eq, Res.ok.injEq, Prod.mk.injEq] at e
    obtain ⟨rfl, rfl⟩ := e
    -- the instance itself
    cases depth with
    | zero => simp [copyInst] at e1
    | succ depth =>
    obtain ⟨r0, hr0⟩ := g.agree p inst hp
    simp only [copyInst, hr0] at e1
    obtain ⟨⟨r, st⟩, e3, e1⟩ := Res.bind_eq_ok.1 e1
    obtain ⟨s1, e4, e1⟩ := Res.bind_eq_ok.1 e1
    obtain ⟨⟨cc, s2⟩, e5, e1⟩ := Res.bind_eq_ok.1 e1
    simp only [Res.pure_eq, Res.ok.injEq, Prod.mk.injEq] at e1
    obtain ⟨rfl, rfl⟩ := e1
    have hcn : h.get? s.next = none := hnext _ (Nat.le_refl _)
    obtain ⟨g0, ro, rm, fr, rne⟩ := getRef_good hgen g (q := some p)
      (fun p' e' => by cases e'; simp [hp]) e3 s.props
    have hst : (st.heap.get? s.next) = none := by
      rw [fr _ hcn]
      cases hx : s.st.heap.get? s.next with
      | none => rfl
      | some b => exact absurd (g.bound s.next (by simp [hx])) (by omega)
    -- after allocating the clone
    have gA := g0.alloc (c := s.next) hcn rfl (Inst.mk inst.className r inst.isService [] [])
      (s.crefs.set r (some s.next))
    have hk := ok.maps p inst hp
    have hperm := it.perm [p] inst.properties
    have pc := copyProps_good hgen hcn gA (by simp)
      ((hperm.map Prod.fst).nodup_iff.2 hk)
      (fun name q hm => ok.closed p inst name q hp (hperm.mem_iff.1 hm)) e4
    have hkeys := copyProps_keys hgen (by simp) e4
    have hget : ∀ name, Map.get? (it.run [p] inst.properties) name = inst.properties.get? name :=
      fun name => (Map.get?_perm hk hperm.symm name).symm
    obtain ⟨b1, hb1, hb1e, hb1p⟩ := pc.clone _ (Map.get?_set_self _ _ _)
    have n1 : s1.next = s.next + 1 := pc.next
    -- the children
    have cb := ihb pc.good (fun x hx => hnext x (by omega)) e5
    have hb2 : s2.st.heap.get? s.next = some b1 := by
      rw [cb.frame _ hcn (by omega)]; exact hb1
    have n2 : s2.next = s.next + 1 + below.length := by rw [cb.next, n1]
    -- setting the children of the clone
    rw [CState.update_eq _ hb2] at e2
    have g2 := cb.good.update hcn hb2 { b1 with children := cc }
    -- the siblings
    have cr := ihr g2 (fun x hx => hnext x (by simp only at hx; omega)) e2
    simp only at cr
    have n3 : s4.next = s.next + 1 + below.length + rest.length := by
      rw [cr.next]; simp only; omega
    have eren : renFrom s.next ((p, inst) :: (below ++ rest)) =
        (p, s.next) :: (renFrom s1.next below ++ renFrom s2.next rest) := by
      rw [renFrom_cons, renFrom_append, n1, n2]
    have hb4 : s4.st.heap.get? s.next = some { b1 with children := cc } := by
      rw [cr.frame _ hcn (by simp only; omega)]
      exact Map.get?_set_self _ _ _
    have inB : ∀ x, x ∈ renFrom s1.next below →
        x ∈ renFrom s.next ((p, inst) :: (below ++ rest)) := by
      intro x hx; rw [eren]; exact List.mem_cons_of_mem _ (List.mem_append_left _ hx)
    have inR : ∀ x, x ∈ renFrom s2.next rest →
        x ∈ renFrom s.next ((p, inst) :: (below ++ rest)) := by
      intro x hx; rw [eren]; exact List.mem_cons_of_mem _ (List.mem_append_right _ hx)
    have hmr : s4.st.refs.at r = some p :=
      cr.refs _ _ (cb.refs _ _ (pc.refs _ _ (ro.2 p rfl)))
    have hb1r : b1.reference = r := (congrArg (fun (x : Inst Nat) => x.reference) hb1e).trans rfl
    have hb1c : b1.className = inst.className := (congrArg (fun (x : Inst Nat) => x.className) hb1e).trans rfl
    have hb1s : b1.isService = inst.isService := (congrArg (fun (x : Inst Nat) => x.isService) hb1e).trans rfl
    refine ⟨cr.good, ?_, ?_, ?_, ?_, ?_, ?_, ?_, ?_, ?_, ?_⟩
    · rw [n3]; simp; omega
    · intro r' p' hr'
      exact cr.refs _ _ (cb.refs _ _ (pc.refs _ _ (rm _ _ hr')))
    · intro x hx hlt
      rw [cr.frame x hx (by simp only; omega)]
      simp only
      rw [Map.get?_set_ne _ _ (by omega), cb.frame x hx (by omega), pc.frame x hx (by omega)]
      simp only
      rw [Map.get?_set_ne _ _ (by omega), fr x hx]
    · refine .cons (by rw [eren]; exact List.mem_cons_self ..) ?_
      exact cr.roots.imp (fun a b hab => inR _ hab)
    · intro p' c' hm
      rw [eren] at hm
      rcases List.mem_cons.1 hm with e' | hm
      · cases e'
        refine ⟨inst, _, hp, hb4, hb1c, hb1s, ?_, ?_, ?_⟩
        · exact cb.roots.imp (fun a b hab => inB _ hab)
        · intro name
          simp only
          rw [hb1p name, hget name]; rfl
        · simp only [hb1r]; exact hmr
      · rcases List.mem_append.1 hm with hm | hm
        · obtain ⟨a, b, h1, h2, h3, h4, h5, h6, h7⟩ := cb.clones p' c' hm
          have hr := renFrom_mem hm
          refine ⟨a, b, h1, ?_, h3, h4, h5.imp (fun a b hab => inB _ hab), h6, cr.refs _ _ h7⟩
          rw [cr.frame c' (hnext c' (by omega)) (by simp only; omega)]
          simp only
          rw [Map.get?_set_ne _ _ (by omega)]; exact h2
        · obtain ⟨a, b, h1, h2, h3, h4, h5, h6, h7⟩ := cr.clones p' c' hm
          exact ⟨a, b, h1, h2, h3, h4, h5.imp (fun a b hab => inR _ hab), h6, h7⟩
    · intro r' c' hr'
      rcases cr.crefsA r' c' hr' with hx | ⟨p', hp', hr''⟩
      · rcases cb.crefsA r' c' hx with hy | ⟨p', hp', hr''⟩
        · rw [pc.crefs, References.at_set] at hy
          split at hy
          · subst_vars; cases hy
            exact .inr ⟨p, by rw [eren]; exact List.mem_cons_self .., hmr⟩
          · exact .inl hy
        · exact .inr ⟨p', inB _ hp', cr.refs _ _ hr''⟩
      · exact .inr ⟨p', inR _ hp', hr''⟩
    · intro r' p' c' hr' hrp hn
      simp only [List.map_cons, List.map_append, List.mem_cons, List.mem_append, not_or] at hn
      have hrr : r' ≠ r := by
        rintro rfl
        have h1 := cr.refs _ _ (cb.refs _ _ (pc.refs _ _ (rm _ _ hrp)))
        rw [hmr] at h1
        exact hn.1 (Option.some.inj h1).symm
      have h1 : s1.crefs.at r' = some c' := by
        rw [pc.crefs, References.at_set, if_neg hrr]; exact hr'
      have h2 := cb.crefsB r' p' c' h1 (pc.refs _ _ (rm _ _ hrp)) hn.2.1
      exact cr.crefsB r' p' c' h2 (cb.refs _ _ (pc.refs _ _ (rm _ _ hrp))) hn.2.2
    · intro hok p' c' hm r' hr'
      simp only [Map.Ok, List.map_cons, List.map_append, List.nodup_cons, List.nodup_append,
        List.mem_append, not_or] at hok
      obtain ⟨⟨k1, k2⟩, k3, k4, k5⟩ := hok
      rw [eren] at hm
      rcases List.mem_cons.1 hm with e' | hm
      · cases e'
        have := cr.good.refs_inj hr' hmr
        subst this
        have h1 : s1.crefs.at r' = some s.next := by
          rw [pc.crefs, References.at_set, if_pos rfl]
        have hm1 := pc.refs _ _ (ro.2 p rfl)
        have h2 := cb.crefsB r' p s.next h1 hm1 k1
        exact cr.crefsB r' p s.next h2 (cb.refs _ _ hm1) k2
      · rcases List.mem_append.1 hm with hm | hm
        · have hr := renFrom_mem hm
          obtain ⟨_, b, _, _, _, _, _, _, hrb⟩ := cb.clones p' c' hm
          have : r' = b.reference := cr.good.refs_inj hr' (cr.refs _ _ hrb)
          subst this
          have h1 := cb.crefsC k3 p' c' hm _ hrb
          exact cr.crefsB _ p' c' h1 hrb (fun hm' => k5 _ hr.1 _ hm' rfl)
        · exact cr.crefsC k4 p' c' hm r' hr'
    · obtain ⟨newB, b1', b2, b3⟩ := cb.props
      obtain ⟨newR, r1, r2, r3⟩ := cr.props
      obtain ⟨newP, q1, q2, q3⟩ := pc.props
      refine ⟨newP ++ newB ++ newR, ?_, ?_, ?_⟩
      · rw [r1]; simp only; rw [b1', q1]; simp
      · intro x hx
        rcases List.mem_append.1 hx with hx | hx
        · rcases List.mem_append.1 hx with hx | hx
          · obtain ⟨q, hx1, hx2, hx3⟩ := q2 x hx
            refine ⟨p, s.next, inst, q, by rw [eren]; exact List.mem_cons_self .., hp, hx1, ?_,
              (hx3.mono cb.refs).mono cr.refs⟩
            exact Map.get?_of_mem hk (hperm.mem_iff.1 hx2)
          · obtain ⟨p', c', a, q, hx1, hx2, hx3, hx4, hx5⟩ := b2 x hx
            exact ⟨p', c', a, q, inB _ hx1, hx2, hx3, hx4, hx5.mono cr.refs⟩
        · obtain ⟨p', c', a, q, hx1, hx2, hx3, hx4, hx5⟩ := r2 x hx
          exact ⟨p', c', a, q, inR _ hx1, hx2, hx3, hx4, hx5⟩
      · intro p' c' a name q hm ha hq
        rw [eren] at hm
        rcases List.mem_cons.1 hm with e' | hm
        · cases e'
          rw [hp] at ha; cases ha
          obtain ⟨x, hx, hx1, hx2⟩ := q3 name q (hperm.mem_iff.2 (Map.mem_of_get? hq))
          exact ⟨x, by simp [hx], hx1, hx2⟩
        · rcases List.mem_append.1 hm with hm | hm
          · obtain ⟨x, hx, hx1, hx2⟩ := b3 p' c' a name q hm ha hq
            exact ⟨x, by simp [hx], hx1, hx2⟩
          · obtain ⟨x, hx, hx1, hx2⟩ := r3 p' c' a name q hm ha hq
            exact ⟨x, by simp [hx], hx1, hx2⟩
    · intro x hx
      rcases cr.onlyNew x hx with h1 | ⟨h1, h2⟩
      · simp only [Map.get?_set] at h1
        split at h1
        · subst_vars; exact .inr ⟨Nat.le_refl _, by omega⟩
        · rcases cb.onlyNew x h1 with h1 | ⟨h1, h2⟩
          · rw [hkeys x] at h1
            simp only [Map.get?_set] at h1
            split at h1
            · subst_vars; exact .inr ⟨Nat.le_refl _, by omega⟩
            · have := (getRef_spec hgen e3).keys x
              rw [this] at h1
              exact .inl h1
          · exact .inr ⟨by omega, by omega⟩
      · exact .inr ⟨by simp only at h1; omega, h2⟩

end Rbxfile

import Verif.Declare.Tree
import Verif.Declare.Values
/-!
# Evaluated declarations
-/
namespace Declare
open Go Rbxfile Spec

theorem _root_.Spec.Declared.occurs {h : Heap Nat} {ds : List Instance} {ps : List Nat} {l : List (Nat × Instance)}
    (hd : Declared h ds ps l) (q : Property) : Occurs q ds ↔ ∃ x ∈ l, q ∈ x.2.properties := by
  induction hd with
  | nil =>
    constructor
    · intro h; cases h with
      | here h => cases h
      | deeper h => cases h
    · rintro ⟨x, h, -⟩; cases h
  | @cons d ds p ps inst below rest hp h1 h2 h3 hb hr ih1 ih2 =>
    constructor
    · intro ho
      cases ho with
      | here hm hq =>
        rcases List.mem_cons.1 hm with rfl | hm
        · exact ⟨(p, _), by simp, hq⟩
        · obtain ⟨x, hx, hxq⟩ := ih2.1 (.here hm hq)
          exact ⟨x, by simp [hx], hxq⟩
      | deeper hm hq =>
        rcases List.mem_cons.1 hm with rfl | hm
        · obtain ⟨x, hx, hxq⟩ := ih1.1 hq
          exact ⟨x, by simp [hx], hxq⟩
        · obtain ⟨x, hx, hxq⟩ := ih2.1 (.deeper hm hq)
          exact ⟨x, by simp [hx], hxq⟩
    · rintro ⟨x, hx, hq⟩
      rcases List.mem_cons.1 hx with rfl | hx
      · exact .here (List.mem_cons_self ..) hq
      · rcases List.mem_append.1 hx with hx | hx
        · exact .deeper (List.mem_cons_self ..) (ih1.2 ⟨x, hx, hq⟩)
        · have := ih2.2 ⟨x, hx, hq⟩
          cases this with
          | here hm hq => exact .here (List.mem_cons_of_mem _ hm) hq
          | deeper hm hq => exact .deeper (List.mem_cons_of_mem _ hm) hq

theorem after_panic {C : Conv} {refs : References Nat} : ∀ {qs : List Property} {m : Map Bytes (Value Nat)},
    after C refs qs m = .panic ↔ ∃ q ∈ qs, BadProperty q
  | [], m => by rw [after]; constructor; nofun; rintro ⟨q, h, -⟩; cases h
  | q :: qs, m => by
    rw [after]
    cases hv : value C q.typ refs q.value with
    | err e => exact absurd hv (value_noErr _ _ _ _ _)
    | panic =>
      exact ⟨fun _ => ⟨q, by simp, (value_panics C).1 hv⟩, fun _ => rfl⟩
    | ok v =>
      have hq : ¬ BadProperty q := fun hb => by
        have := (value_panics C (refs := refs)).2 hb
        rw [hv] at this
        cases this
      show after C refs qs _ = .panic ↔ _
      rw [after_panic]
      constructor
      · rintro ⟨r, hr, hb⟩; exact ⟨r, by simp [hr], hb⟩
      · rintro ⟨r, hr, hb⟩
        rcases List.mem_cons.1 hr with rfl | hr
        · exact absurd hb hq
        · exact ⟨r, hr, hb⟩

/-- The instances are as declared, with the properties. -/
structure Evaluated (C : Conv) (refs : References Nat) (h : Heap Nat) (base : Nat) (ds : List Instance) (ps : List Nat)
    (l : List (Nat × Instance)) : Prop where
  decl : Declared h ds ps l
  nodup : (l.map Prod.fst).Nodup
  above : ∀ x ∈ l, base ≤ x.1
  keys : ∀ q, (h.get? q).isSome ↔ q ∈ l.map Prod.fst
  resolves : ∀ s, refs.at s = lastRef l s
  absent : ∀ x ∈ l, ∀ i, h.get? x.1 = some i → ∀ n, lastProp x.2.properties n = none → i.properties.get? n = none
  present : ∀ x ∈ l, ∀ i, h.get? x.1 = some i → ∀ n q, lastProp x.2.properties n = some q →
    value C q.typ refs q.value = .ok (i.properties.get? n)

theorem evaluated (C : Conv) (it : Iter) {base : Nat} {s : State} {ds : List Instance} {ps : List Nat} {l : List (Nat × Instance)}
    (hb : Built { next := base } s ds ps l) :
    (∃ h, assignAll C s.refs (it.run [] s.props) s.heap = .ok h ∧ Evaluated C s.refs h base ds ps l) ∨
    (assignAll C s.refs (it.run [] s.props) s.heap = .panic ∧ ∃ q, Occurs q ds ∧ BadProperty q) := by
  have hprops : s.props = l.map fun x => (x.1, x.2.properties) := by rw [hb.props]; rfl
  have hfst : s.props.map Prod.fst = l.map Prod.fst := by rw [hprops, List.map_map]; rfl
  have hnd : (l.map Prod.fst).Nodup := by rw [hb.range]; exact List.nodup_range'
  have hok : s.heap.Ok := hb.ok Map.ok_nil
  have hp := it.perm [] s.props
  have hkeys : ∀ q, (s.heap.get? q).isSome ↔ q ∈ l.map Prod.fst := by
    intro q
    rw [hb.keys]
    simp
  have hsome : ∀ x ∈ s.props, (s.heap.get? x.1).isSome := by
    intro x hx
    rw [hkeys, ← hfst]
    exact List.mem_map_of_mem hx
  have hfresh : ∀ x ∈ l, ∀ i, s.heap.get? x.1 = some i → i.properties = [] := fun x hx =>
    hb.fresh x.1 (List.mem_map_of_mem hx)
  rw [← assignAll_perm C s.refs hp.symm (hfst ▸ hnd) hok hsome]
  rcases assignAll_spec C s.refs s.props s.heap (hfst ▸ hnd) hok hsome with ⟨h, e, a⟩ | ⟨e, x, hx, i, hi, hc⟩
  · refine .inl ⟨h, e, ?_⟩
    have hget : ∀ x ∈ l, ∀ i, h.get? x.1 = some i → ∃ i', s.heap.get? x.1 = some i' ∧
        ∃ m, after C s.refs x.2.properties [] = .ok m ∧ i = { i' with properties := m } := by
      intro x hx i hi
      obtain ⟨i', hi'⟩ := Option.isSome_iff_exists.1 ((hkeys x.1).2 (List.mem_map_of_mem hx))
      have hm : (x.1, x.2.properties) ∈ s.props := by rw [hprops]; exact List.mem_map.2 ⟨x, hx, rfl⟩
      obtain ⟨m, hm1, hm2⟩ := a.props _ hm i' hi'
      rw [hi] at hm2
      rw [hfresh x hx i' hi'] at hm1
      exact ⟨i', hi', m, hm1, by cases hm2; rfl⟩
    refine ⟨?_, hnd, ?_, ?_, ?_, ?_, ?_⟩
    · refine hb.decl.congr ?_
      intro q hq i hi
      obtain ⟨x, hx, rfl⟩ := List.mem_map.1 hq
      have hm : (x.1, x.2.properties) ∈ s.props := by rw [hprops]; exact List.mem_map.2 ⟨x, hx, rfl⟩
      obtain ⟨m, hm1, hm2⟩ := a.props _ hm i hi
      exact ⟨_, hm2, rfl, rfl, rfl, rfl⟩
    · intro x hx
      exact (hb.bounds.1 (List.mem_map_of_mem hx)).1
    · intro q
      rw [Map.get?_isSome, a.keys, ← Map.get?_isSome, hkeys]
    · intro r
      rw [hb.refs]
      show (lastRef l r).or none = _
      rw [Option.or_none]
    · intro x hx i hi n hn
      obtain ⟨i', -, m, hm, rfl⟩ := hget x hx i hi
      rw [(after_get C s.refs n _ _ _ hm Map.ok_nil).2.1 hn]
      rfl
    · intro x hx i hi n q hq
      obtain ⟨i', -, m, hm, rfl⟩ := hget x hx i hi
      exact (after_get C s.refs n _ _ _ hm Map.ok_nil).2.2 q hq
  · refine .inr ⟨e, ?_⟩
    rw [hprops] at hx
    obtain ⟨y, hy, rfl⟩ := List.mem_map.1 hx
    obtain ⟨q, hq, hbad⟩ := after_panic.1 hc
    exact ⟨q, (hb.decl.occurs q).2 ⟨y, hy, hq⟩, hbad⟩

theorem assignAll_order (C : Conv) (it it' : Iter) {base : Nat} {s : State} {ds : List Instance} {ps : List Nat}
    {l : List (Nat × Instance)} (hb : Built { next := base } s ds ps l) :
    assignAll C s.refs (it.run [] s.props) s.heap = assignAll C s.refs (it'.run [] s.props) s.heap := by
  have hprops : s.props = l.map fun x => (x.1, x.2.properties) := by rw [hb.props]; rfl
  have hfst : s.props.map Prod.fst = l.map Prod.fst := by rw [hprops, List.map_map]; rfl
  have hnd : (s.props.map Prod.fst).Nodup := by rw [hfst, hb.range]; exact List.nodup_range'
  have hsome : ∀ x ∈ s.props, (s.heap.get? x.1).isSome := by
    intro x hx
    rw [hb.keys, ← hfst]
    exact .inr (List.mem_map_of_mem hx)
  have hok : s.heap.Ok := hb.ok Map.ok_nil
  rw [← assignAll_perm C s.refs (it.perm [] s.props).symm hnd hok hsome,
    assignAll_perm C s.refs (it'.perm [] s.props).symm hnd hok hsome]

theorem bad_panics (C : Conv) (it : Iter) {base : Nat} {s : State} {ds : List Instance} {ps : List Nat}
    {l : List (Nat × Instance)} (hb : Built { next := base } s ds ps l) {q : Property} (hq : Occurs q ds) (hbad : BadProperty q) :
    assignAll C s.refs (it.run [] s.props) s.heap = .panic := by
  rcases evaluated C it hb with ⟨h, e, he⟩ | ⟨e, -⟩
  · exfalso
    obtain ⟨x, hx, hxq⟩ := (hb.decl.occurs q).1 hq
    have hprops : s.props = l.map fun x => (x.1, x.2.properties) := by rw [hb.props]; rfl
    have hfst : s.props.map Prod.fst = l.map Prod.fst := by rw [hprops, List.map_map]; rfl
    have hnd : (s.props.map Prod.fst).Nodup := by rw [hfst, hb.range]; exact List.nodup_range'
    have hsome : ∀ x ∈ s.props, (s.heap.get? x.1).isSome := by
      intro x hx
      rw [hb.keys, ← hfst]
      exact .inr (List.mem_map_of_mem hx)
    have hok : s.heap.Ok := hb.ok Map.ok_nil
    have hm : (x.1, x.2.properties) ∈ s.props := by rw [hprops]; exact List.mem_map.2 ⟨x, hx, rfl⟩
    rw [← assignAll_perm C s.refs (it.perm [] s.props).symm hnd hok hsome] at e
    rcases assignAll_spec C s.refs s.props s.heap hnd hok hsome with ⟨h', e', a⟩ | ⟨e', -⟩
    · obtain ⟨i, hi⟩ := Option.isSome_iff_exists.1 (hsome _ hm)
      obtain ⟨m, hm1, -⟩ := a.props _ hm i hi
      rw [after_panic.2 ⟨q, hxq, hbad⟩] at hm1
      cases hm1
    · rw [e'] at e; cases e
  · exact e

theorem instanceOf_eq (c : Bytes) (l : List Element) :
    instanceOf c l = .mk c ((refOf l).getD []) (propertiesOf l) (childrenOf l) := by
  have key : ∀ (l : List Element) (r : Bytes) (ps : List Property) (cs : List Instance),
      l.foldl addElement (Instance.mk c r ps cs) =
        .mk c ((refOf l).getD r) (ps ++ propertiesOf l) (cs ++ childrenOf l) := by
    intro l
    induction l with
    | nil => intro r ps cs; simp [refOf, propertiesOf, childrenOf]
    | cons e l ih =>
      intro r ps cs
      cases e with
      | ref s =>
        rw [List.foldl_cons]
        simp only [addElement]
        rw [ih]
        simp only [refOf, propertiesOf, childrenOf]
        cases refOf l <;> rfl
      | property q => rw [List.foldl_cons]; simp only [addElement]; rw [ih]; simp [refOf, propertiesOf, childrenOf]
      | «instance» d => rw [List.foldl_cons]; simp only [addElement]; rw [ih]; simp [refOf, propertiesOf, childrenOf]
  rw [instanceOf, key]
  rfl

end Declare

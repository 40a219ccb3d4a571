import Batteries.Data.List.Perm
import Verif.Rbxl.DecodeInv
import Verif.Spec.Tree
/-!
# Links that give every child one parent make trees
-/
namespace Rbxl
open Go Rbxfile Spec

/-- `x` is `n` links below the root. -/
inductive At (links : List (Id × Id)) : Nat → Id → Prop
  | top {x} : (x, -1) ∈ links → At links 0 x
  | under {n x p} : At links n p → (x, p) ∈ links → At links (n + 1) x

/-- `x` is `k` links below `p`. -/
inductive Under (links : List (Id × Id)) (p : Id) : Nat → Id → Prop
  | self : Under links p 0 p
  | step {k y x} : Under links p k y → (x, y) ∈ links → Under links p (k + 1) x

/-- In links whose children are different, a child has one parent. -/
theorem parent_unique {links : List (Id × Id)} (hn : (links.map Prod.fst).Nodup) {x p q : Id} (hp : (x, p) ∈ links)
    (hq : (x, q) ∈ links) : p = q := by
  induction links with
  | nil => cases hp
  | cons l links ih =>
    simp only [List.map_cons, List.nodup_cons, List.mem_map, not_exists, not_and] at hn
    rcases List.mem_cons.1 hp with hp | hp <;> rcases List.mem_cons.1 hq with hq | hq
    · rw [← hp] at hq; cases hq; rfl
    · exact absurd (by rw [← hp]) (hn.1 _ hq)
    · exact absurd (by rw [← hq]) (hn.1 _ hp)
    · exact ih hn.2 hp hq

section
variable {links : List (Id × Id)} (hn : (links.map Prod.fst).Nodup) {known : List Id} (hm : (-1 : Id) ∉ known)
  (hk : ∀ l ∈ links, l.1 ∈ known)
include hn hm hk

omit hn hm in
theorem At.mem {n x} (h : At links n x) : x ∈ known := by
  cases h with
  | top h => exact hk _ h
  | under _ h => exact hk _ h

theorem At.unique {n m x} (h : At links n x) (h' : At links m x) : n = m := by
  induction h generalizing m with
  | top h =>
    cases h' with
    | top _ => rfl
    | under h1 h2 =>
      have := parent_unique hn h h2
      subst this
      exact absurd (h1.mem hk) hm
  | under h1 h2 ih =>
    cases h' with
    | top h =>
      have := parent_unique hn h h2
      subst this
      exact absurd (h1.mem hk) hm
    | under h1' h2' =>
      have := parent_unique hn h2 h2'
      subst this
      rw [ih h1']

theorem At.path {n x} (h : At links n x) : ∃ L : List Id, L.length = n + 1 ∧ L.Nodup ∧ (∀ y ∈ L, y ∈ known) ∧
    ∀ y ∈ L, ∃ i, i ≤ n ∧ At links i y := by
  induction h with
  | @top x h =>
    refine ⟨[x], rfl, by simp, ?_, ?_⟩
    · intro y hy; simp only [List.mem_singleton] at hy; subst hy; exact hk _ h
    · intro y hy; simp only [List.mem_singleton] at hy; subst hy; exact ⟨0, Nat.le_refl _, .top h⟩
  | @under n x p h1 h2 ih =>
    obtain ⟨L, l1, l2, l3, l4⟩ := ih
    have hx : At links (n + 1) x := .under h1 h2
    refine ⟨x :: L, by simp [l1], ?_, ?_, ?_⟩
    · rw [List.nodup_cons]
      refine ⟨fun hm' => ?_, l2⟩
      obtain ⟨i, hi, ha⟩ := l4 x hm'
      have := ha.unique hn hm hk hx
      omega
    · intro y hy
      rcases List.mem_cons.1 hy with rfl | hy
      · exact hk _ h2
      · exact l3 y hy
    · intro y hy
      rcases List.mem_cons.1 hy with rfl | hy
      · exact ⟨n + 1, Nat.le_refl _, hx⟩
      · obtain ⟨i, hi, ha⟩ := l4 y hy
        exact ⟨i, by omega, ha⟩

theorem At.bound {n x} (h : At links n x) : n < known.length := by
  obtain ⟨L, l1, l2, l3, -⟩ := h.path hn hm hk
  have := (List.subperm_of_subset l2 (fun y hy => l3 y hy)).length_le
  omega

omit hm hk hn in
theorem Under.at {n k p x} (hp : At links n p) (h : Under links p k x) : At links (n + k) x := by
  induction h with
  | self => exact hp
  | step _ h2 ih => exact .under ih h2

omit hm hk in
theorem Under.top_unique {k p q x} (h : Under links p k x) (h' : Under links q k x) : p = q := by
  induction h with
  | self => cases h'; rfl
  | step _ h2 ih =>
    cases h' with
    | step h1' h2' =>
      have := parent_unique hn h2 h2'
      subst this
      exact ih h1'

omit hm hk hn in
theorem Under.trans {k m p q x} (h : Under links p k q) (h' : Under links q m x) : Under links p (k + m) x := by
  induction h' with
  | self => exact h
  | step _ h2 ih => exact .step ih h2

omit hm hk in
theorem childrenIn_nodup (p : Id) : (childrenIn links p).Nodup :=
  hn.sublist ((List.filter_sublist).map _)

omit hm hk hn in
theorem mem_childrenIn {x p : Id} : x ∈ childrenIn links p ↔ (x, p) ∈ links := by
  simp only [childrenIn, List.mem_map, List.mem_filter, decide_eq_true_eq]
  constructor
  · rintro ⟨⟨a, b⟩, ⟨h1, h2⟩, h3⟩
    simp only at h2 h3
    subst h2; subst h3; exact h1
  · intro h; exact ⟨_, ⟨h, rfl⟩, rfl⟩

theorem forest_of_links {h : Heap Id} (hkeys : ∀ n x, At links n x → ∃ inst, h.get? x = some inst ∧ inst.children = childrenIn links x) :
    ∀ (k : Nat) (n : Nat), n + k = known.length → ∀ ps : List Id, ps.Nodup → (∀ p ∈ ps, At links n p) →
    ∃ l, Forest h ps l ∧ (l.map Prod.fst).Nodup ∧ ∀ x ∈ l.map Prod.fst, ∃ p ∈ ps, ∃ m, Under links p m x := by
  intro k
  induction k with
  | zero =>
    intro n hnk ps _ hat
    cases ps with
    | nil => exact ⟨[], .nil, by simp, by simp⟩
    | cons p ps => have := (hat p (by simp)).bound hn hm hk; omega
  | succ k ih =>
    intro n hnk ps
    induction ps with
    | nil => intro _ _; exact ⟨[], .nil, by simp, by simp⟩
    | cons p ps ihp =>
      intro hnd hat
      rw [List.nodup_cons] at hnd
      have hp := hat p (by simp)
      obtain ⟨rest, r1, r2, r3⟩ := ihp hnd.2 (fun q hq => hat q (by simp [hq]))
      obtain ⟨inst, i1, i2⟩ := hkeys n p hp
      obtain ⟨bel, b1, b2, b3⟩ := ih (n + 1) (by omega) (childrenIn links p) (childrenIn_nodup hn p)
        (fun x hx => .under hp (mem_childrenIn.1 hx))
      have b3' : ∀ x ∈ bel.map Prod.fst, ∃ m, Under links p (m + 1) x := by
        intro x hx
        obtain ⟨q, hq, m, hu⟩ := b3 x hx
        refine ⟨m, ?_⟩
        have := Under.trans (Under.step (.self (p := p)) (mem_childrenIn.1 hq)) hu
        rwa [show 0 + 1 + m = m + 1 by omega] at this
      have pnot : ∀ x, x ∈ rest.map Prod.fst → ∀ m, ¬ Under links p m x := by
        intro x hx m hu
        obtain ⟨q, hq, m', hu'⟩ := r3 x hx
        have hq' := hat q (by simp [hq])
        have e := (hu.at hp).unique hn hm hk (hu'.at hq')
        have : m = m' := by omega
        subst this
        have := hu.top_unique hn hu'
        subst this
        exact hnd.1 hq
      refine ⟨(p, inst) :: (bel ++ rest), .cons i1 (i2 ▸ b1) r1, ?_, ?_⟩
      · simp only [List.map_cons, List.map_append, List.nodup_cons, List.mem_append, not_or]
        refine ⟨⟨?_, ?_⟩, ?_⟩
        · intro hx
          obtain ⟨m, hu⟩ := b3' p hx
          have := (hu.at hp).unique hn hm hk hp
          omega
        · intro hx
          exact pnot p hx 0 .self
        · rw [List.nodup_append]
          refine ⟨b2, r2, ?_⟩
          intro x hx y hy e
          subst e
          obtain ⟨m, hu⟩ := b3' x hx
          exact pnot x hy _ hu
      · intro x hx
        simp only [List.map_cons, List.map_append, List.mem_cons, List.mem_append] at hx
        rcases hx with rfl | hx | hx
        · exact ⟨x, by simp, 0, .self⟩
        · obtain ⟨m, hu⟩ := b3' x hx
          exact ⟨p, by simp, _, hu⟩
        · obtain ⟨q, hq, m, hu⟩ := r3 x hx
          exact ⟨q, by simp [hq], m, hu⟩

end

/-! ## Exactly when links make trees -/

theorem forest_keys {h : Heap Id} {ps : List Id} {l : Map Id (Inst Id)} (f : Forest h ps l) :
    (l.map Prod.fst).Perm (ps ++ l.flatMap fun x => x.2.children) := by
  induction f with
  | nil => exact .refl _
  | @cons p ps inst below rest _ _ _ ih1 ih2 =>
    simp only [List.map_cons, List.map_append, List.flatMap_cons, List.flatMap_append, List.cons_append]
    refine .cons p ((ih1.append ih2).trans ?_)
    generalize inst.children = a, (below.flatMap fun x => x.2.children) = b, (rest.flatMap fun x => x.2.children) = c
    refine List.perm_iff_count.2 fun x => ?_
    simp only [List.count_append]
    omega

theorem childrenIn_twice {links : List (Id × Id)} {i j : Nat} {x p : Id} (hij : i < j) (hi : links[i]? = some (x, p))
    (hj : links[j]? = some (x, p)) : ¬ (childrenIn links p).Nodup := by
  obtain ⟨hil, hi⟩ := List.getElem?_eq_some_iff.1 hi
  have hm : (x, p) ∈ links.drop (i + 1) := by
    refine List.mem_of_getElem? (i := j - (i + 1)) ?_
    rw [List.getElem?_drop, show i + 1 + (j - (i + 1)) = j by omega, hj]
  have e : links = links.take i ++ (x, p) :: links.drop (i + 1) := by
    rw [← hi, ← List.drop_eq_getElem_cons, List.take_append_drop]
  intro hn
  rw [e, childrenIn, List.filter_append, List.filter_cons, if_pos (by simp), List.map_append, List.map_cons, List.nodup_append] at hn
  have := (List.nodup_cons.1 hn.2.1).1
  exact this (List.mem_map.2 ⟨(x, p), List.mem_filter.2 ⟨hm, by simp⟩, rfl⟩)

theorem linkedOnce_of_trees {links : List (Id × Id)} {h : Heap Id} {ps : List Id} {l : Map Id (Inst Id)}
    (hps : ps = childrenIn links (-1)) (hc : ∀ x inst, h.get? x = some inst → inst.children = childrenIn links x)
    (ht : Trees h ps l) : LinkedOnce links := by
  obtain ⟨hf, hok⟩ := ht
  have hperm := forest_keys hf
  have hn : (ps ++ l.flatMap fun x => x.2.children).Nodup := hperm.nodup_iff.1 hok
  rw [List.nodup_append] at hn
  have hget : ∀ p inst, (p, inst) ∈ l → h.get? p = some inst := by
    clear hperm hn hok hps
    induction hf with
    | nil => intro p inst hm; cases hm
    | cons h1 _ _ ih1 ih2 =>
      intro p inst hm
      rcases List.mem_cons.1 hm with hm | hm
      · cases hm; exact h1
      · rcases List.mem_append.1 hm with hm | hm
        · exact ih1 p inst hm
        · exact ih2 p inst hm
  -- The children of a linked instance.
  have hlist : ∀ p, Linked links p → p = -1 ∨ ∃ inst, (p, inst) ∈ l := by
    intro p hp
    induction hp with
    | root => exact .inl rfl
    | @step x p _ hx ih =>
      right
      have : x ∈ l.map Prod.fst := by
        rw [hperm.mem_iff, List.mem_append]
        rcases ih with rfl | ⟨inst, hm⟩
        · left; rw [hps]; exact mem_childrenIn.2 hx
        · right
          refine List.mem_flatMap.2 ⟨_, hm, ?_⟩
          rw [hc p inst (hget p inst hm)]
          exact mem_childrenIn.2 hx
      obtain ⟨⟨y, inst⟩, hm, rfl⟩ := List.mem_map.1 this
      exact ⟨inst, hm⟩
  intro i j x p q hij hi hj hp hq
  have hxp := mem_childrenIn.2 (List.mem_of_getElem? hi)
  have hxq := mem_childrenIn.2 (List.mem_of_getElem? hj)
  have nodupOf : ∀ p inst, (p, inst) ∈ l → inst.children.Nodup := by
    intro p inst hm
    obtain ⟨a, b, e⟩ := List.append_of_mem hm
    have := hn.2.1
    rw [e, List.flatMap_append, List.flatMap_cons, List.nodup_append, List.nodup_append] at this
    exact this.2.1.1
  have uniq : ∀ a ∈ l, ∀ b ∈ l, x ∈ a.2.children → x ∈ b.2.children → a = b := by
    have := hn.2.1
    clear hperm hn hok hps hf hget hlist nodupOf
    induction l with
    | nil => intro a ha; cases ha
    | cons y l ih =>
      rw [List.flatMap_cons, List.nodup_append] at this
      intro a ha b hb hxa hxb
      rcases List.mem_cons.1 ha with ea | ha' <;> rcases List.mem_cons.1 hb with eb | hb'
      · rw [ea, eb]
      · subst ea
        exact absurd rfl (this.2.2 x hxa x (List.mem_flatMap.2 ⟨b, hb', hxb⟩))
      · subst eb
        exact absurd rfl (this.2.2 x hxb x (List.mem_flatMap.2 ⟨a, ha', hxa⟩))
      · exact ih this.2.1 a ha' b hb' hxa hxb
  have inFlat : ∀ p inst, (p, inst) ∈ l → x ∈ childrenIn links p → x ∈ inst.children := by
    intro p inst hm hx
    rw [hc p inst (hget p inst hm)]; exact hx
  rcases hlist p hp with rfl | ⟨ip, hip⟩ <;> rcases hlist q hq with rfl | ⟨iq, hiq⟩
  · exact childrenIn_twice hij hi hj (hps ▸ hn.1)
  · exact hn.2.2 x (hps ▸ hxp) x (List.mem_flatMap.2 ⟨_, hiq, inFlat _ _ hiq hxq⟩) rfl
  · exact hn.2.2 x (hps ▸ hxq) x (List.mem_flatMap.2 ⟨_, hip, inFlat _ _ hip hxp⟩) rfl
  · have := uniq _ hip _ hiq (inFlat _ _ hip hxp) (inFlat _ _ hiq hxq)
    cases this
    refine childrenIn_twice hij hi hj ?_
    rw [← hc p ip (hget p ip hip)]
    exact nodupOf p ip hip

theorem trees_of_linkedOnce {links : List (Id × Id)} {known : List Id} (hm : (-1 : Id) ∉ known) (hk : ∀ l ∈ links, l.1 ∈ known)
    {h : Heap Id} {ps : List Id} (hps : ps = childrenIn links (-1))
    (hkeys : ∀ x ∈ known, ∃ inst, h.get? x = some inst ∧ inst.children = childrenIn links x) (hl : LinkedOnce links) :
    ∃ l, Trees h ps l := by
  classical
  let links' := links.filter fun l => decide (Linked links l.2)
  have hsame : ∀ p, Linked links p → childrenIn links' p = childrenIn links p := by
    intro p hp
    simp only [childrenIn, links', List.filter_filter]
    congr 1
    refine List.filter_congr fun l _ => ?_
    by_cases e : l.2 = p
    · subst e; simp [hp]
    · simp [e]
  have hn : (links'.map Prod.fst).Nodup := by
    rw [List.Nodup, List.pairwise_map, List.pairwise_filter, List.pairwise_iff_getElem]
    intro i j hi hj hij h1 h2 e
    refine hl i j links[i].1 links[i].2 links[j].2 hij (by rw [List.getElem?_eq_getElem hi]) ?_ (by simpa using h1) (by simpa using h2)
    rw [List.getElem?_eq_getElem hj, e]
  have hsub : ∀ l ∈ links', l ∈ links := fun l hl => (List.mem_filter.1 hl).1
  have hat : ∀ n x, At links' n x → Linked links x := by
    intro n x ha
    induction ha with
    | top hx => exact .step .root (hsub _ hx)
    | under _ hx ih => exact .step ih (hsub _ hx)
  obtain ⟨l, l1, l2, -⟩ := forest_of_links hn hm (fun l hl => hk l (hsub l hl)) (h := h) (by
    intro n x ha
    obtain ⟨inst, h1, h2⟩ := hkeys x (ha.mem fun l hl => hk l (hsub l hl))
    exact ⟨inst, h1, h2.trans (hsame x (hat n x ha)).symm⟩) known.length 0 (by omega)
    (childrenIn links' (-1)) (childrenIn_nodup hn _) (fun p hp => .top (mem_childrenIn.1 hp))
  rw [hsame _ .root] at l1
  exact ⟨l, hps ▸ l1, l2⟩

/-- Links that name no child twice. -/
theorem linkedOnce_of_nodup {links : List (Id × Id)} (hn : (links.map Prod.fst).Nodup) : LinkedOnce links := by
  intro i j x p q hij hi hj _ _
  have hjl := (List.getElem?_eq_some_iff.1 hj).1
  have h1 : (links.map Prod.fst)[i]? = some x := by rw [List.getElem?_map, hi]; rfl
  have h2 : (links.map Prod.fst)[j]? = some x := by rw [List.getElem?_map, hj]; rfl
  have := (List.getElem?_inj (by rw [List.length_map]; omega) hn).1 (h1.trans h2.symm)
  omega

end Rbxl

import Verif.Spec.XmlReplace
import Verif.Props.XmlOrder
import Verif.Props.XmlDecode
/-!
# C109: an Item of an XML document has no effect beside the instances it describes
-/
namespace Props
open Go Rbxfile Rbxlx Spec

theorem builds_length {h : Heap Nat} {K : Nat → Tag → Inst Nat → Prop} {ts : List Tag} {ps : List Nat} {l : Map Nat (Inst Nat)}
    (b : Builds h K ts ps l) : l.length = itemsCount ts := by
  induction b with
  | nil => rfl
  | @skip t ts ps l hs _ ih =>
    obtain ⟨hd, sub⟩ := t
    rw [itemsCount, itemCount, if_neg, ih, Nat.zero_add]
    rintro ⟨h1, h2⟩
    have := hs h1
    simp only [Tag.head] at this
    rw [this] at h2; cases h2
  | @item t ts ps below rest p inst i1 i2 _ _ _ _ _ _ ih1 ih2 =>
    obtain ⟨hd, sub⟩ := t
    simp only [Tag.head, Tag.tags] at i1 i2 ih1
    rw [itemsCount, itemCount, if_pos ⟨i1, by rw [i2]; rfl⟩, List.length_cons, List.length_append, ih1, ih2]
    omega

theorem builds_append {h : Heap Nat} {K : Nat → Tag → Inst Nat → Prop} : ∀ {A B : List Tag} {ps : List Nat} {l : Map Nat (Inst Nat)},
    Builds h K (A ++ B) ps l → ∃ pa pb la lb, ps = pa ++ pb ∧ l = la ++ lb ∧ Builds h K A pa la ∧ Builds h K B pb lb
  | [], _, ps, l, b => ⟨[], ps, [], l, rfl, rfl, .nil, b⟩
  | t :: A, B, _, _, b => by
    cases b with
    | skip hs b =>
      obtain ⟨pa, pb, la, lb, rfl, rfl, b1, b2⟩ := builds_append b
      exact ⟨pa, pb, la, lb, rfl, rfl, .skip hs b1, b2⟩
    | @item _ _ ps below rest p inst i1 i2 i3 i4 i5 i6 i7 b =>
      obtain ⟨pa, pb, la, lb, rfl, rfl, b1, b2⟩ := builds_append b
      exact ⟨p :: pa, pb, (p, inst) :: (below ++ la), lb, rfl, by simp, .item i1 i2 i3 i4 i5 i6 i7 b1, b2⟩

theorem builds_roots {h : Heap Nat} {K : Nat → Tag → Inst Nat → Prop} {ts : List Tag} {ps : List Nat} {l : Map Nat (Inst Nat)}
    (b : Builds h K ts ps l) : ∀ p ∈ ps, p ∈ l.map Prod.fst := by
  induction b with
  | nil => intro p h; cases h
  | skip _ _ ih => exact ih
  | item _ _ _ _ _ _ _ _ _ ih2 =>
    intro q hq
    rcases List.mem_cons.1 hq with rfl | hq
    · exact List.mem_cons_self ..
    · rw [List.map_cons, List.map_append]
      exact List.mem_cons_of_mem _ (List.mem_append_right _ (ih2 q hq))

/-- Instances with the same number, of Items with the same properties. -/
def BesideBuilt (f g : Nat → Option Nat) (K K' : Nat → Tag → Inst Nat → Prop) (x y : Nat × Inst Nat) : Prop :=
  f x.1 = g y.1 ∧ x.2.className = y.2.className ∧ x.2.reference = y.2.reference ∧ x.2.isService = y.2.isService ∧
    x.2.children.filterMap f = y.2.children.filterMap g ∧
    ∃ t t', K x.1 t x.2 ∧ K' y.1 t' y.2 ∧ propertyTags t.tags = propertyTags t'.tags

theorem filterMap_cons_eq {f g : Nat → Option Nat} {p q : Nat} {ps qs : List Nat} (h : f p = g q) (hs : ps.filterMap f = qs.filterMap g) :
    (p :: ps).filterMap f = (q :: qs).filterMap g := by
  rw [List.filterMap_cons, List.filterMap_cons, h, hs]

/-- The same tags, at different places. -/
theorem same_built {f g : Nat → Option Nat} {h h' : Heap Nat} {K K' : Nat → Tag → Inst Nat → Prop} {ts : List Tag} {ps : List Nat}
    {l : Map Nat (Inst Nat)} (b : Builds h K ts ps l) : ∀ {ps' : List Nat} {l' : Map Nat (Inst Nat)}, Builds h' K' ts ps' l' →
      (l.map fun x => f x.1) = (l'.map fun x => g x.1) →
      ps.filterMap f = ps'.filterMap g ∧ List.Forall₂ (BesideBuilt f g K K') l l' := by
  induction b with
  | nil => intro ps' l' b' _; cases b'; exact ⟨rfl, .nil⟩
  | skip hs _ ih =>
    intro ps' l' b' hk
    cases b' with
    | skip _ b' => exact ih b' hk
    | item i1 i2 => exact absurd (hs i1) (by rw [i2]; exact nofun)
  | @item t ts ps below rest p inst a1 a2 a3 a4 a5 a6 a7 a8 ih1 ih2 =>
    intro ps' l' b' hk
    cases b' with
    | skip hs _ => exact absurd (hs a1) (by rw [a2]; exact nofun)
    | item b1 b2 b3 b4 b5 b6 b7 b8 =>
      simp only [List.map_cons, List.map_append, List.cons.injEq] at hk
      obtain ⟨k1, k2⟩ := hk
      obtain ⟨k3, k4⟩ := List.append_inj k2 (by simp only [List.length_map, builds_length a7, builds_length b7])
      obtain ⟨c1, c2⟩ := ih1 b7 k3
      obtain ⟨c3, c4⟩ := ih2 b8 k4
      refine ⟨filterMap_cons_eq k1 c3, .cons ⟨k1, ?_, ?_, ?_, c1, t, t, a6, b6, rfl⟩ (List.rel_append c2 c4)⟩
      · rw [b2] at a2; exact (Option.some.inj a2).symm
      · rw [a3, b3]
      · rw [a4, b4]

/-- All of the tags are Items. -/
def AllItems (ts : List Tag) : Prop := ∀ t ∈ ts, t.head.startName = str "Item"

theorem propertyTags_replaced {x y : List Tag} (hx : AllItems x) (hy : AllItems y) {k : Nat} {ts ts' : List Tag} (hr : Replaced x y k ts ts') :
    propertyTags ts = propertyTags ts' := by
  have items : ∀ {z : List Tag}, AllItems z → ∀ B, propertyTags (z ++ B) = propertyTags B := by
    intro z hz B
    induction z with
    | nil => rfl
    | cons t z ih =>
      rw [List.cons_append, propertyTags_cons, if_neg (by rw [hz t (List.mem_cons_self ..)]; decide)]
      exact ih fun u hu => hz u (List.mem_cons_of_mem _ hu)
  have app : ∀ (A : List Tag) {B B' : List Tag}, propertyTags B = propertyTags B' → propertyTags (A ++ B) = propertyTags (A ++ B') := by
    intro A B B' h
    induction A with
    | nil => exact h
    | cons t A ih => rw [List.cons_append, List.cons_append, propertyTags_cons, propertyTags_cons, ih]
  cases hr with
  | here => exact app _ (by rw [items hx, items hy])
  | inside hi _ =>
    refine app _ ?_
    rw [propertyTags_cons, propertyTags_cons, if_neg, if_neg]
    · intro h; exact absurd (hi.1.symm.trans h) (by decide)
    · intro h; exact absurd (hi.1.symm.trans h) (by decide)

theorem meta_replaced {x y : List Tag} (hx : AllItems x) (hy : AllItems y) {k : Nat} {ts ts' : List Tag} (hr : Replaced x y k ts ts') :
    metaPairs ts = metaPairs ts' ∧ sharedEntries ts = sharedEntries ts' := by
  have items : ∀ {z : List Tag}, AllItems z → metaPairs z = [] ∧ sharedEntries z = [] := by
    intro z hz
    constructor
    · unfold metaPairs
      rw [List.filterMap_eq_nil_iff]
      intro t ht
      rw [if_neg (by rw [hz t ht]; decide)]
    · unfold sharedEntries
      rw [List.flatMap_eq_nil_iff]
      intro t ht
      rw [if_neg (by rw [hz t ht]; decide)]
  have m1 : ∀ A B, metaPairs (A ++ B) = metaPairs A ++ metaPairs B := fun A B => List.filterMap_append
  have m2 : ∀ A B, sharedEntries (A ++ B) = sharedEntries A ++ sharedEntries B := fun A B => List.flatMap_append
  cases hr with
  | here => simp only [m1, m2, (items hx).1, (items hx).2, (items hy).1, (items hy).2, List.nil_append, and_self]
  | @inside k hd ts ts' A B hi _ =>
    have one : ∀ us, AllItems [⟨hd, us⟩] := by
      intro us t ht
      rw [List.mem_singleton] at ht
      subst ht
      exact hi.1
    have c : ∀ us, (⟨hd, us⟩ :: B : List Tag) = [⟨hd, us⟩] ++ B := fun _ => rfl
    simp only [c, m1, m2, (items (one _)).1, (items (one _)).2, List.nil_append, and_self]

/-- The instances of documents of which one has other tags in a place. -/
theorem replaced_built {x y : List Tag} (hx : AllItems x) (hy : AllItems y) {h h' : Heap Nat} {K K' : Nat → Tag → Inst Nat → Prop} {k : Nat}
    {ts ts' : List Tag} (hr : Replaced x y k ts ts') :
    ∀ {ps ps' : List Nat} {l l' : Map Nat (Inst Nat)}, Builds h K ts ps l → Builds h' K' ts' ps' l' →
      ∃ la lx lb la' ly lb', l = la ++ (lx ++ lb) ∧ l' = la' ++ (ly ++ lb') ∧ la.length = k ∧ la'.length = k ∧ lx.length = itemsCount x ∧
        ly.length = itemsCount y ∧ lb.length = lb'.length ∧
        ∀ f g : Nat → Option Nat, (la.map fun x => f x.1) = (la'.map fun x => g x.1) → (lb.map fun x => f x.1) = (lb'.map fun x => g x.1) →
          (∀ p ∈ lx.map Prod.fst, f p = none) → (∀ p ∈ ly.map Prod.fst, g p = none) →
          ps.filterMap f = ps'.filterMap g ∧ List.Forall₂ (BesideBuilt f g K K') la la' ∧ List.Forall₂ (BesideBuilt f g K K') lb lb' := by
  induction hr with
  | @here A B =>
    intro ps ps' l l' b b'
    obtain ⟨pa, pr, la, lr, rfl, rfl, ba, br⟩ := builds_append b
    obtain ⟨px, pb, lx, lb, rfl, rfl, bx, bb⟩ := builds_append br
    obtain ⟨pa', pr', la', lr', rfl, rfl, ba', br'⟩ := builds_append b'
    obtain ⟨py, pb', ly, lb', rfl, rfl, by', bb'⟩ := builds_append br'
    refine ⟨la, lx, lb, la', ly, lb', rfl, rfl, builds_length ba, builds_length ba', builds_length bx, builds_length by',
      (builds_length bb).trans (builds_length bb').symm, ?_⟩
    intro f g ha hb nx ny
    obtain ⟨c1, c2⟩ := same_built ba ba' ha
    obtain ⟨c3, c4⟩ := same_built bb bb' hb
    have e1 : px.filterMap f = [] := by
      rw [List.filterMap_eq_nil_iff]; exact fun p hp => nx p (builds_roots bx p hp)
    have e2 : py.filterMap g = [] := by
      rw [List.filterMap_eq_nil_iff]; exact fun p hp => ny p (builds_roots by' p hp)
    exact ⟨by simp only [List.filterMap_append, c1, c3, e1, e2], c2, c4⟩
  | @inside k hd ts ts' A B hi hr ih =>
    intro ps ps' l l' b b'
    obtain ⟨pa, pr, la, lr, rfl, rfl, ba, br⟩ := builds_append b
    obtain ⟨pa', pr', la', lr', rfl, rfl, ba', br'⟩ := builds_append b'
    cases br with
    | skip hs _ => exact absurd (hs hi.1) hi.2
    | @item _ _ ps1 below rest p inst a1 a2 a3 a4 a5 a6 a7 a8 =>
      cases br' with
      | skip hs _ => exact absurd (hs hi.1) hi.2
      | @item _ _ ps1' below' rest' p' inst' b1 b2 b3 b4 b5 b6 b7 b8 =>
        obtain ⟨ma, mx, mb, ma', my, mb', rfl, rfl, n1, n2, n3, n4, n5, key⟩ := ih a7 b7
        refine ⟨la ++ (p, inst) :: ma, mx, mb ++ rest, la' ++ (p', inst') :: ma', my, mb' ++ rest', by simp, by simp, ?_, ?_, n3, n4, ?_, ?_⟩
        · rw [List.length_append, List.length_cons, builds_length ba, n1]; omega
        · rw [List.length_append, List.length_cons, builds_length ba', n2]; omega
        · rw [List.length_append, List.length_append, builds_length a8, builds_length b8, n5]
        · intro f g ha hb nx ny
          simp only [List.map_append, List.map_cons] at ha hb
          obtain ⟨ha1, ha2⟩ := List.append_inj ha (by simp only [List.length_map, builds_length ba, builds_length ba'])
          obtain ⟨hb1, hb2⟩ := List.append_inj hb (by simp only [List.length_map, n5])
          simp only [List.cons.injEq] at ha2
          obtain ⟨c1, c2⟩ := same_built ba ba' ha1
          obtain ⟨c3, c4⟩ := same_built a8 b8 hb2
          obtain ⟨d1, d2, d3⟩ := key f g ha2.2 hb1 nx ny
          refine ⟨?_, List.rel_append c2 (.cons ⟨ha2.1, ?_, ?_, ?_, d1, _, _, a6, b6, propertyTags_replaced hx hy hr⟩ d2), List.rel_append d3 c4⟩
          · rw [List.filterMap_append, List.filterMap_append, c1, filterMap_cons_eq ha2.1 c3]
          · exact Option.some.inj (a2.symm.trans b2)
          · exact a3.trans b3.symm
          · exact a4.trans b4.symm

/-- Where the last of the instances with a referent are. -/
theorem last_beside {f g : Nat → Option Nat} {K K' : Nat → Tag → Inst Nat → Prop} (ref : Bytes) : ∀ {l l' : List (Nat × Inst Nat)},
    List.Forall₂ (BesideBuilt f g K K') l l' →
    ((l.filter fun x => decide (x.2.reference = ref)).getLast?.map fun x => f x.1) =
      ((l'.filter fun x => decide (x.2.reference = ref)).getLast?.map fun x => g x.1) := by
  intro l l' h
  have : ((l.filter fun x => decide (x.2.reference = ref)).map fun x => f x.1) =
      ((l'.filter fun x => decide (x.2.reference = ref)).map fun x => g x.1) := by
    induction h with
    | nil => rfl
    | cons hxy _ ih =>
      rw [List.filter_cons, List.filter_cons, hxy.2.2.1]
      split
      · rw [List.map_cons, List.map_cons, hxy.1, ih]
      · exact ih
  rw [← List.getLast?_map, this, List.getLast?_map]

theorem target_beside {f g : Nat → Option Nat} {K K' : Nat → Tag → Inst Nat → Prop} {la lx lb la' ly lb' : List (Nat × Inst Nat)}
    (ha : List.Forall₂ (BesideBuilt f g K K') la la') (hb : List.Forall₂ (BesideBuilt f g K K') lb lb')
    (hx : ∀ p ∈ lx.map Prod.fst, f p = none) (hy : ∀ p ∈ ly.map Prod.fst, g p = none) (ref : Bytes) :
    (targetOf (la ++ (lx ++ lb)) ref).map f = (targetOf (la' ++ (ly ++ lb')) ref).map g ∨
      (∃ p, targetOf (la ++ (lx ++ lb)) ref = some p ∧ f p = none) ∨ ∃ q, targetOf (la' ++ (ly ++ lb')) ref = some q ∧ g q = none := by
  unfold targetOf
  by_cases he : isEmptyReference ref = true
  · left; rw [if_pos he, if_pos he]; rfl
  · rw [if_neg he, if_neg he]
    have ea := last_beside ref ha
    have eb := last_beside ref hb
    rw [List.filter_append, List.filter_append, List.filter_append, List.filter_append, List.getLast?_append, List.getLast?_append,
      List.getLast?_append, List.getLast?_append]
    rcases h1 : (lb.filter fun x => decide (x.2.reference = ref)).getLast? with _ | u <;>
      rcases h2 : (lb'.filter fun x => decide (x.2.reference = ref)).getLast? with _ | v <;>
      rw [h1, h2] at eb <;> simp only [Option.map_none, Option.map_some, reduceCtorEq] at eb
    · rcases h3 : (lx.filter fun x => decide (x.2.reference = ref)).getLast? with _ | u
      · rcases h4 : (ly.filter fun x => decide (x.2.reference = ref)).getLast? with _ | v
        · left
          rw [h1, h2, h3, h4, Option.none_or, Option.none_or, Option.map_map, Option.map_map]
          exact ea
        · right; right
          exact ⟨v.1, by rw [h2, h4]; rfl, hy _ (List.mem_map_of_mem (List.mem_of_mem_filter (List.mem_of_getLast? h4)))⟩
      · right; left
        exact ⟨u.1, by rw [h1, h3]; rfl, hx _ (List.mem_map_of_mem (List.mem_of_mem_filter (List.mem_of_getLast? h3)))⟩
    · left
      rw [h1, h2]
      exact eb

theorem getProperty_no_reference {F : FloatText} {discard : Bool} {t : Tag} {n : Bytes} {p : Nat} :
    getProperty F discard t ≠ .ok (.value n (.reference (some p))) := by
  intro h
  have pv : ∀ name ty o u, propValue F discard name ty o u ≠ .ok (.value n (.reference (some p))) := by
    intro name ty o u hu
    unfold propValue at hu
    rcases hg : getValue (ρ := Nat) F discard u ty with (_ | v) | _ | _ <;> rw [hg] at hu <;> simp only [reduceCtorEq] at hu
    · cases hu
    · cases v <;> simp only at hu
      case reference r =>
        have ht := getValue_type F discard u ty _ hg
        simp only [Value.type] at ht
        subst ht
        simp only [getValue] at hg
        cases hg
        split at hu
        · split at hu <;> cases hu
        · cases hu
      case sharedString => cases hu
      all_goals
        split at hu <;> cases hu
  unfold getProperty at h
  split at h
  · cases h
  · simp only at h
    split at h
    · split at h
      · cases h
      · cases h
      · exact pv _ _ _ _ h
    · exact pv _ _ _ _ h

theorem lastValue_no_reference {F : FloatText} {discard : Bool} {ts : List Tag} {rs : List (PropRes Nat)}
    (h : List.Forall₂ (fun t r => getProperty F discard t = .ok r) ts rs) (n : Bytes) (p : Nat) : lastValue rs n ≠ some (.reference (some p)) := by
  intro hl
  unfold lastValue at hl
  obtain ⟨r, hr, hv⟩ := List.mem_filterMap.1 (List.mem_of_getLast? hl)
  obtain ⟨t, -, ht⟩ := related_mem h.flip hr
  cases r <;> simp only [reduceCtorEq] at hv
  split at hv
  · cases hv
    exact getProperty_no_reference ht
  · cases hv

theorem results_unique {F : FloatText} {discard : Bool} : ∀ {ts : List Tag} {rs rs' : List (PropRes Nat)},
    List.Forall₂ (fun t r => getProperty F discard t = .ok r) ts rs → List.Forall₂ (fun t r => getProperty F discard t = .ok r) ts rs' → rs = rs'
  | _, _, _, .nil, .nil => rfl
  | _, _, _, .cons h hs, .cons h' hs' => by
    rw [h] at h'
    cases h'
    rw [results_unique hs hs']

theorem numberBeside_inj {k m p q n : Nat} (hp : numberBeside k m p = some n) (hq : numberBeside k m q = some n) : p = q := by
  unfold numberBeside at hp hq
  split at hp <;> split at hq <;> (try split at hp) <;> (try split at hq) <;> simp only [Option.some.injEq, reduceCtorEq] at hp hq <;> omega

/-- C109: if Items of a file, anywhere in it, are replaced with others, nothing is different beside the instances they describe: the
instances with their numbers in the order of the document, those from the `k`-th on are left out. -/
theorem C109_replaced (F : FloatText) (discard : Bool) {s s' rest rest' : Bytes} {head : Head} {tags tags' x y : List Tag} {k : Nat}
    (hx : ∀ t ∈ x, t.head.startName = str "Item") (hy : ∀ t ∈ y, t.head.startName = str "Item")
    (hr : readFrom s = .ok (some ⟨head, tags⟩, rest)) (hr' : readFrom s' = .ok (some ⟨head, tags'⟩, rest'))
    (hd : Replaced x y k tags tags') {h h' : Heap Nat} {root root' : Root Nat}
    (ho : decode F discard s = .ok (h, root)) (ho' : decode F discard s' = .ok (h', root')) :
    SameOthers (numberBeside k (itemsCount x)) (numberBeside k (itemsCount y)) h h' root root' := by
  have m1 := C70_metadata hr ho
  have m2 := C70_metadata hr' ho'
  simp only [decode, hr] at ho
  simp only [decode, hr'] at ho'
  obtain ⟨l, b1, k1, k2, -⟩ := codecDecode_spec ho
  obtain ⟨l', b1', k1', k2', -⟩ := codecDecode_spec ho'
  obtain ⟨e1, e2⟩ := meta_replaced hx hy hd
  obtain ⟨la, lx, lb, la', ly, lb', hl, hl', n1, n2, n3, n4, n5, key⟩ := replaced_built hx hy hd b1 b1'
  have split3 : ∀ {a b c : List (Nat × Inst Nat)} {N : Nat}, (a ++ (b ++ c)).map Prod.fst = List.range N →
      a.map Prod.fst = List.range' 0 a.length ∧ b.map Prod.fst = List.range' a.length b.length ∧
      c.map Prod.fst = List.range' (a.length + b.length) c.length ∧ N = a.length + (b.length + c.length) := by
    intro a b c N h
    have hN : N = a.length + (b.length + c.length) := by
      have := congrArg List.length h
      simp only [List.length_map, List.length_append, List.length_range] at this
      omega
    rw [List.range_eq_range', hN, ← List.range'_append_1, ← List.range'_append_1, List.map_append, List.map_append] at h
    obtain ⟨h1, h2⟩ := List.append_inj h (by simp)
    obtain ⟨h3, h4⟩ := List.append_inj h2 (by simp)
    exact ⟨h1, by rw [h3, Nat.zero_add], by rw [h4, Nat.zero_add], hN⟩
  subst hl hl'
  obtain ⟨r1, r2, r3, r4⟩ := split3 k1
  obtain ⟨r1', r2', r3', r4'⟩ := split3 k1'
  rw [n1] at r1 r2 r3 r4
  rw [n2] at r1' r2' r3' r4'
  rw [n3] at r2 r3 r4
  rw [n4] at r2' r3' r4'
  have low : ∀ m, (List.range' 0 k).map (numberBeside k m) = (List.range' 0 k).map some := by
    intro m
    refine List.map_congr_left fun p hp => ?_
    rw [List.mem_range'_1] at hp
    rw [numberBeside, if_pos (by omega)]
  have high : ∀ m, (List.range' (k + m) lb.length).map (numberBeside k m) = (List.range' k lb.length).map some := by
    intro m
    refine List.ext_getElem (by simp) fun i h1 h2 => ?_
    simp only [List.getElem_map, List.getElem_range', numberBeside]
    rw [if_neg (by omega), if_neg (by omega)]
    congr 1; omega
  have mm : ∀ (f : Nat → Option Nat) (z : List (Nat × Inst Nat)), (z.map fun x => f x.1) = (z.map Prod.fst).map f := by
    intro f z; rw [List.map_map]; rfl
  have nx : ∀ p ∈ lx.map Prod.fst, numberBeside k (itemsCount x) p = none := by
    intro p hp
    rw [r2, List.mem_range'_1] at hp
    rw [numberBeside, if_neg (by omega), if_pos (by omega)]
  have ny : ∀ p ∈ ly.map Prod.fst, numberBeside k (itemsCount y) p = none := by
    intro p hp
    rw [r2', List.mem_range'_1] at hp
    rw [numberBeside, if_neg (by omega), if_pos (by omega)]
  obtain ⟨c1, c2, c3⟩ := key (numberBeside k (itemsCount x)) (numberBeside k (itemsCount y))
    (by rw [mm, mm, r1, r1', low, low]) (by rw [mm, mm, r3, r3', high, ← n5, high]) nx ny
  refine ⟨c1, fun k => by rw [m1, m2]; simp only [Tag.tags]; rw [e1], fun p q n hp hq => ?_⟩
  have none_of : ∀ (m : Heap Nat) (p : Nat), m.map Prod.fst = List.range m.length → m.length ≤ p → m.get? p = none := by
    intro m p hm e
    rw [Map.get?_eq_none]
    show p ∉ m.map Prod.fst
    rw [hm, List.mem_range]; omega
  by_cases hlt : p < h.length
  · right
    have hmem : p ∈ (la ++ (lx ++ lb)).map Prod.fst := by rw [k1]; exact List.mem_range.2 hlt
    have hside : p ∈ la.map Prod.fst ∨ p ∈ lb.map Prod.fst := by
      rw [List.map_append, List.map_append, List.mem_append, List.mem_append] at hmem
      rcases hmem with h | h | h
      · exact .inl h
      · rw [nx p h] at hp; cases hp
      · exact .inr h
    obtain ⟨i, z, hi, hy, hb⟩ : ∃ i z, (p, i) ∈ la ++ (lx ++ lb) ∧ z ∈ la' ++ (ly ++ lb') ∧ BesideBuilt (numberBeside k (itemsCount x))
        (numberBeside k (itemsCount y)) (fun _ => PropsOf F discard tags (la ++ (lx ++ lb)))
        (fun _ => PropsOf F discard tags' (la' ++ (ly ++ lb'))) (p, i) z := by
      rcases hside with h | h <;> obtain ⟨⟨_, i⟩, hi, rfl⟩ := List.mem_map.1 h
      · obtain ⟨y, hy, hb⟩ := related_mem c2 hi
        exact ⟨i, y, List.mem_append_left _ hi, List.mem_append_left _ hy, hb⟩
      · obtain ⟨y, hy, hb⟩ := related_mem c3 hi
        exact ⟨i, y, List.mem_append_right _ (List.mem_append_right _ hi), List.mem_append_right _ (List.mem_append_right _ hy), hb⟩
    obtain ⟨q', j⟩ := z
    obtain ⟨q1, q2, q3, q4, q5, t, t', ⟨rs, q6, q7⟩, ⟨rs', q8, q9⟩, q10⟩ := hb
    dsimp only at *
    have hq' : q' = q := numberBeside_inj (q1.symm.trans hp) hq
    subst hq'
    refine ⟨i, j, builds_get b1 hi, builds_get b1' hy, q2, q3, q4, q5, fun name => ?_⟩
    rw [← q10] at q8
    have e := results_unique q6 q8
    subst e
    rw [q7, q9]
    unfold propertyOf
    rcases (refsTo rs name).getLast? with _ | ref <;> simp only
    · left
      rw [e2]
      refine ⟨rfl, fun p => ?_⟩
      rcases hs : ((sharedEntries tags').filter fun e => decide (e.1 ∈ hashesOf rs name)).getLast? with _ | e <;> rw [hs]
      · exact lastValue_no_reference q6 name p
      · intro h; cases h
    · right
      exact ⟨_, _, rfl, rfl, target_beside c2 c3 nx ny ref⟩
  · left
    refine ⟨none_of h p k2 (by omega), none_of h' q k2' ?_⟩
    unfold numberBeside at hp hq
    split at hp <;> split at hq <;> (try split at hp) <;> (try split at hq) <;> simp only [Option.some.injEq, reduceCtorEq] at hp hq <;> omega

theorem propertyIn_append {A B : List Tag} {t : Tag} : PropertyIn (A ++ B) t ↔ PropertyIn A t ∨ PropertyIn B t := by
  induction A with
  | nil => exact ⟨.inr, fun h => h.resolve_left (not_propertyIn_nil t)⟩
  | cons a A ih => rw [List.cons_append, propertyIn_cons, propertyIn_cons, ih, or_assoc]

theorem propertyIn_replaced {x y : List Tag} (hx : AllItems x) (hy : AllItems y) {k : Nat} {ts ts' : List Tag} (hr : Replaced x y k ts ts') {t : Tag}
    (ht : PropertyIn ts' t) : PropertyIn ts t ∨ PropertyIn y t := by
  induction hr with
  | here =>
    rw [propertyIn_append, propertyIn_append] at ht ⊢
    rcases ht with h | h | h
    · exact .inl (.inl h)
    · exact .inr h
    · exact .inl (.inr (.inr h))
  | inside hi hr ih =>
    rw [propertyIn_append, propertyIn_cons] at ht ⊢
    rcases ht with h | ⟨h1, h2, h3 | h3⟩ | h
    · exact .inl (.inl h)
    · refine .inl (.inr (.inl ⟨h1, h2, .inl ?_⟩))
      exact (propertyTags_replaced hx hy hr) ▸ h3
    · rcases ih h3 with h | h
      · exact .inl (.inr (.inl ⟨h1, h2, .inr h⟩))
      · exact .inr h
    · exact .inl (.inr (.inr h))

/-- C109: replacing Items makes decoding fail only if one of the new Items has a font that makes it panic (`CrashingFont`, C63). In
particular, Items can always be removed. -/
theorem C109_accepted (F : FloatText) (discard : Bool) {s s' rest rest' : Bytes} {head : Head} {tags tags' x y : List Tag} {k : Nat}
    (hx : ∀ t ∈ x, t.head.startName = str "Item") (hy : ∀ t ∈ y, t.head.startName = str "Item")
    (hr : readFrom s = .ok (some ⟨head, tags⟩, rest)) (hr' : readFrom s' = .ok (some ⟨head, tags'⟩, rest'))
    (hd : Replaced x y k tags tags') {h : Heap Nat} {root : Root Nat} (ho : decode F discard s = .ok (h, root))
    (hf : ∀ t, PropertyIn y t → ¬ CrashingFont t) : ∃ h' root', decode F discard s' = .ok (h', root') := by
  rcases ho' : decode F discard s' with ⟨h', root'⟩ | e | _
  · exact ⟨h', root', rfl⟩
  · simp only [decode, hr'] at ho'
    exact absurd ho' ((codecDecode_panic F discard (some ⟨head, tags'⟩)).1 e)
  · obtain ⟨d, r, e, t, h1, h2⟩ := (C63_panics_iff F discard s').1 ho'
    rw [hr'] at e
    cases e
    rcases propertyIn_replaced hx hy hd h1 with h3 | h3
    · have := (C63_panics_iff F discard s).2 ⟨_, rest, hr, t, h3, h2⟩
      rw [ho] at this; cases this
    · exact absurd h2 (hf t h3)

/-- C109: the same file without some of the Items: it is decoded to the same tree without their instances. -/
theorem C109_removed (F : FloatText) (discard : Bool) {s s' rest rest' : Bytes} {head : Head} {tags tags' x : List Tag} {k : Nat}
    (hx : ∀ t ∈ x, t.head.startName = str "Item") (hr : readFrom s = .ok (some ⟨head, tags⟩, rest))
    (hr' : readFrom s' = .ok (some ⟨head, tags'⟩, rest')) (hd : Replaced x [] k tags tags') {h : Heap Nat} {root : Root Nat}
    (ho : decode F discard s = .ok (h, root)) : ∃ h' root', decode F discard s' = .ok (h', root') ∧
      SameOthers (numberBeside k (itemsCount x)) some h h' root root' := by
  obtain ⟨h', root', ho'⟩ := C109_accepted F discard hx (fun _ h => by cases h) hr hr' hd ho fun t ht => absurd ht (not_propertyIn_nil t)
  have e : numberBeside k (itemsCount []) = some := by
    funext p
    rw [itemsCount, numberBeside]
    split
    · rfl
    · rw [if_neg (by omega)]; rfl
  exact ⟨h', root', ho', e ▸ C109_replaced F discard hx (fun _ h => by cases h) hr hr' hd ho ho'⟩

/-! ## Cases -/

/-- A file in which an Item has two others, of which the first is replaced in `newerItems`. -/
def olderItems : Bytes := str ("<roblox version=\"4\"><Item class=\"A\" referent=\"R\"><Properties><Ref name=\"J\">S</Ref></Properties>" ++
  "<Item class=\"B\" referent=\"T\"></Item><Item class=\"C\" referent=\"S\"></Item></Item></roblox>")

/-- See `olderItems`. -/
def newerItems : Bytes := str ("<roblox version=\"4\"><Item class=\"A\" referent=\"R\"><Properties><Ref name=\"J\">S</Ref></Properties>" ++
  "<Item class=\"D\"></Item><Item class=\"E\"></Item><Item class=\"C\" referent=\"S\"></Item></Item></roblox>")

/-- The hypotheses are met: one instance comes before the Item replaced, which describes one instance; the new ones describe two. -/
example : ∃ head tags tags' x y, readFrom olderItems = .ok (some ⟨head, tags⟩, []) ∧ readFrom newerItems = .ok (some ⟨head, tags'⟩, []) ∧
    Replaced x y 1 tags tags' ∧ (∀ t ∈ x, t.head.startName = str "Item") ∧ (∀ t ∈ y, t.head.startName = str "Item") ∧
    itemsCount x = 1 ∧ itemsCount y = 2 ∧ (decode goFloat true olderItems).isOk ∧ (decode goFloat true newerItems).isOk := by
  refine ⟨(plainTag "roblox" [("version", "4")] "" []).head,
    [plainTag "Item" [("class", "A"), ("referent", "R")] "" [plainTag "Properties" [] "" [plainTag "Ref" [("name", "J")] "S" []],
      plainTag "Item" [("class", "B"), ("referent", "T")] "" [], plainTag "Item" [("class", "C"), ("referent", "S")] "" []]],
    [plainTag "Item" [("class", "A"), ("referent", "R")] "" [plainTag "Properties" [] "" [plainTag "Ref" [("name", "J")] "S" []],
      plainTag "Item" [("class", "D")] "" [], plainTag "Item" [("class", "E")] "" [], plainTag "Item" [("class", "C"), ("referent", "S")] "" []]],
    [plainTag "Item" [("class", "B"), ("referent", "T")] "" []], [plainTag "Item" [("class", "D")] "" [], plainTag "Item" [("class", "E")] "" []],
    by decide +kernel, by decide +kernel, ?_, by decide, by decide, by decide, by decide, by decide +kernel, by decide +kernel⟩
  exact Replaced.inside (before := []) (after := []) ⟨rfl, by decide⟩
    (Replaced.here (before := [plainTag "Properties" [] "" [plainTag "Ref" [("name", "J")] "S" []]])
      (after := [plainTag "Item" [("class", "C"), ("referent", "S")] "" []]))

/-- What is said of this case: the instances of the classes A and C remain, with their numbers and the reference; by the number, the
reference of A leads to the same instance. -/
example : (decode goFloat true olderItems).isOk ∧ (match decode goFloat true olderItems, decode goFloat true newerItems with
    | .ok (h, _), .ok (h', _) =>
      (h.map fun x => (x.2.className, x.2.properties)) == [(str "A", [(str "J", .reference (some 2))]), (str "B", []), (str "C", [])] &&
      (h'.map fun x => (x.2.className, x.2.properties)) ==
        [(str "A", [(str "J", .reference (some 3))]), (str "D", []), (str "E", []), (str "C", [])]
    | _, _ => false) = true ∧ numberBeside 1 1 2 = numberBeside 1 2 3 := by
  decide +kernel

/-- An Item does have an effect on references to others: those to its own referent lead to it if it comes later. -/
theorem C109_same_referent : (match decode goFloat true (str ("<roblox version=\"4\"><Item class=\"A\" referent=\"R\"><Properties>" ++
        "<Ref name=\"J\">R</Ref></Properties></Item><Item class=\"B\" referent=\"R\"></Item></roblox>")) with
      | .ok (h, _) => h.map fun x => x.2.properties
      | _ => []) = [[(str "J", .reference (some 1))], []] ∧
    (match decode goFloat true (str ("<roblox version=\"4\"><Item class=\"A\" referent=\"R\"><Properties>" ++
        "<Ref name=\"J\">R</Ref></Properties></Item></roblox>")) with
      | .ok (h, _) => h.map fun x => x.2.properties
      | _ => []) = [[(str "J", .reference (some 0))]] := by
  decide +kernel

end Props

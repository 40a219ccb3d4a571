import Mathlib.Data.List.Forall2
import Verif.Spec.DecodeXml
import Verif.Spec.Tree
/-!
# The XML codec decodes what the tags say: the instances and the pending references
-/
namespace Rbxlx
open Go Rbxfile Spec

/-! ### Builds -/

theorem builds_mono {h h' : Heap Nat} {K K' : Nat → Tag → Inst Nat → Prop} {ts ps l} (b : Builds h K ts ps l)
    (hh : ∀ p ∈ l.map Prod.fst, h'.get? p = h.get? p) (hK : ∀ p ∈ l.map Prod.fst, ∀ t inst, K p t inst → K' p t inst) :
    Builds h' K' ts ps l := by
  induction b with
  | nil => exact .nil
  | skip h1 _ ih => exact .skip h1 (ih hh hK)
  | item h1 h2 h3 h4 h5 h6 _ _ ih1 ih2 =>
    refine .item h1 h2 h3 h4 ?_ (hK _ (by simp) _ _ h6) ?_ ?_
    · rw [hh _ (by simp)]; exact h5
    · exact ih1 (fun p hp => hh p (by simp at hp ⊢; exact .inr (.inl hp))) (fun p hp => hK p (by simp at hp ⊢; exact .inr (.inl hp)))
    · exact ih2 (fun p hp => hh p (by simp at hp ⊢; exact .inr (.inr hp))) (fun p hp => hK p (by simp at hp ⊢; exact .inr (.inr hp)))

theorem builds_append {h : Heap Nat} {K : Nat → Tag → Inst Nat → Prop} {ts ts' ps ps' l l'} (b : Builds h K ts ps l)
    (b' : Builds h K ts' ps' l') : Builds h K (ts ++ ts') (ps ++ ps') (l ++ l') := by
  induction b with
  | nil => exact b'
  | skip h1 _ ih => exact .skip h1 ih
  | item h1 h2 h3 h4 h5 h6 b1 _ _ ih2 =>
    have := Builds.item h1 h2 h3 h4 h5 h6 b1 ih2
    simpa using this

theorem builds_forest {h : Heap Nat} {K : Nat → Tag → Inst Nat → Prop} {ts ps l} (b : Builds h K ts ps l) :
    Forest h ps l := by
  induction b with
  | nil => exact .nil
  | skip _ _ ih => exact ih
  | item _ _ _ _ h5 _ _ _ ih1 ih2 => exact .cons h5 ih1 ih2

/-! ### pending references -/

/-- The pending entries of an instance. -/
def entriesOf (q : Nat) (l : List (PropRef Nat)) : List (Bytes × Bytes) :=
  (l.filter fun r => decide (r.inst = some q)).map fun r => (r.property, r.reference)

theorem entriesOf_append (q : Nat) (l m : List (PropRef Nat)) : entriesOf q (l ++ m) = entriesOf q l ++ entriesOf q m := by
  simp [entriesOf]

/-- The references among results. -/
def refResults (rs : List (PropRes Nat)) : List (Bytes × Bytes) :=
  rs.filterMap fun r => match r with
    | .ref n x => some (n, x)
    | _ => none

/-- The hashes among results. -/
def hashResults (rs : List (PropRes Nat)) : List (Bytes × Bytes) :=
  rs.filterMap fun r => match r with
    | .shared n x => some (n, x)
    | _ => none

/-- The values among results, set in order. -/
def setValues (props : Map Bytes (Value Nat)) (rs : List (PropRes Nat)) : Map Bytes (Value Nat) :=
  rs.foldl (fun (m : Map Bytes (Value Nat)) r => match r with
    | .value n v => m.set n v
    | _ => m) props

/-- All pending entries are of instances below `n`. -/
def PendingBelow (n : Nat) (st : DecState) : Prop :=
  (∀ r ∈ st.propRefs, ∃ q, r.inst = some q ∧ q < n) ∧ ∀ r ∈ st.stringRefs, ∃ q, r.inst = some q ∧ q < n

theorem PendingBelow.mono {n m : Nat} {st : DecState} (h : PendingBelow n st) (hm : n ≤ m) : PendingBelow m st :=
  ⟨fun r hr => by obtain ⟨q, h1, h2⟩ := h.1 r hr; exact ⟨q, h1, by omega⟩,
    fun r hr => by obtain ⟨q, h1, h2⟩ := h.2 r hr; exact ⟨q, h1, by omega⟩⟩

theorem entriesOf_below {n : Nat} {l : List (PropRef Nat)} (h : ∀ r ∈ l, ∃ q, r.inst = some q ∧ q < n) {q : Nat} (hq : n ≤ q) :
    entriesOf q l = [] := by
  simp only [entriesOf, List.map_eq_nil_iff, List.filter_eq_nil_iff, decide_eq_true_eq]
  intro r hr e
  obtain ⟨q', h1, h2⟩ := h r hr
  rw [h1] at e; cases e; omega

/-- The results of the property tags of an instance that is built: its values, and its pending entries. -/
def Pending (F : FloatText) (d : Bool) (st : DecState) (p : Nat) (t : Tag) (inst : Inst Nat) : Prop :=
  ∃ rs : List (PropRes Nat), List.Forall₂ (fun t r => getProperty F d t = .ok r) (propertyTags t.tags) rs ∧
    inst.properties = setValues [] rs ∧ entriesOf p st.propRefs = refResults rs ∧ entriesOf p st.stringRefs = hashResults rs

theorem getProps_spec {F : FloatText} {d : Bool} {p : Nat} : ∀ (ts : List Tag) (props props' : Map Bytes (Value Nat))
    (st st' : DecState), getProps F d p ts props st = .ok (props', st') →
    ∃ rs : List (PropRes Nat), List.Forall₂ (fun t r => getProperty F d t = .ok r) ts rs ∧ props' = setValues props rs ∧
      st'.heap = st.heap ∧ st'.lookup = st.lookup ∧
      st'.propRefs = st.propRefs ++ (refResults rs).map (fun e => ⟨some p, e.1, e.2⟩) ∧
      st'.stringRefs = st.stringRefs ++ (hashResults rs).map (fun e => ⟨some p, e.1, e.2⟩) := by
  intro ts
  induction ts with
  | nil =>
    intro props props' st st' e
    simp only [getProps, Res.ok.injEq, Prod.mk.injEq] at e
    obtain ⟨rfl, rfl⟩ := e
    exact ⟨[], .nil, rfl, rfl, rfl, by simp [refResults], by simp [hashResults]⟩
  | cons t ts ih =>
    intro props props' st st' e
    simp only [getProps] at e
    rcases hg : getProperty (ρ := Nat) F d t with r | x | _ <;> simp only [hg] at e
    · obtain ⟨rs, h1, h2, h3, h4, h5, h6⟩ := ih _ _ _ _ e
      refine ⟨r :: rs, .cons hg h1, ?_, ?_, ?_, ?_, ?_⟩
      · rw [h2]; cases r <;> rfl
      · rw [h3]; cases r <;> rfl
      · rw [h4]; cases r <;> rfl
      · rw [h5]; cases r <;> simp [applyProp, refResults]
      · rw [h6]; cases r <;> simp [applyProp, hashResults]
    · cases e
    · cases e

/-- An instance is entered in the table of references (rbxlx/codec.go:141-143). -/
def addRef (refs : References Nat) (x : Nat × Inst Nat) : References Nat :=
  if x.2.reference ≠ [] ∧ isEmptyReference x.2.reference = false then refs.set x.2.reference (some x.1) else refs

/-- What a part of the loop of `getItems` does, for the tags `ts` in an Item with the pointer `parent`. -/
structure Part (F : FloatText) (d : Bool) (ts : List Tag) (parent : Option Nat) (hp : Bool) (props : Map Bytes (Value Nat))
    (st : DecState) (ids : List Nat) (props' : Map Bytes (Value Nat)) (st' : DecState) (l : Map Nat (Inst Nat)) : Prop where
  le : st.heap.length ≤ st'.heap.length
  keys : st'.heap.map Prod.fst = List.range st'.heap.length
  new : l.map Prod.fst = List.range' st.heap.length (st'.heap.length - st.heap.length)
  old : ∀ q, q < st.heap.length → st'.heap.get? q = st.heap.get? q
  lookup : st'.lookup = l.foldl addRef st.lookup
  pending : PendingBelow st'.heap.length st'
  builds : Builds st'.heap (Pending F d st') ts ids l
  others : ∀ q, q < st.heap.length → parent ≠ some q →
    entriesOf q st'.propRefs = entriesOf q st.propRefs ∧ entriesOf q st'.stringRefs = entriesOf q st.stringRefs
  own : ∀ q, parent = some q → ∃ rs : List (PropRes Nat),
    List.Forall₂ (fun t r => getProperty F d t = .ok r) (if hp then [] else propertyTags ts) rs ∧
    props' = setValues props rs ∧ entriesOf q st'.propRefs = entriesOf q st.propRefs ++ refResults rs ∧
    entriesOf q st'.stringRefs = entriesOf q st.stringRefs ++ hashResults rs

/-- The state before a part. -/
structure Before (parent : Option Nat) (st : DecState) : Prop where
  keys : st.heap.map Prod.fst = List.range st.heap.length
  pending : PendingBelow st.heap.length st
  parent : ∀ q, parent = some q → q < st.heap.length

theorem propertyTags_cons_ne {t : Tag} {ts : List Tag} (h : t.head.startName ≠ str "Properties") :
    propertyTags (t :: ts) = propertyTags ts := by
  simp [propertyTags, List.find?_cons, h]

theorem propertyTags_cons_eq {t : Tag} {ts : List Tag} (h : t.head.startName = str "Properties") :
    propertyTags (t :: ts) = t.tags := by
  simp [propertyTags, List.find?_cons, h]

theorem Part.nil {F : FloatText} {d : Bool} {parent : Option Nat} {hp : Bool} {props st} (hb : Before parent st) :
    Part F d [] parent hp props st [] props st [] where
  le := Nat.le_refl _
  keys := hb.keys
  new := by simp
  old := fun _ _ => rfl
  lookup := rfl
  pending := hb.pending
  builds := .nil
  others := fun _ _ _ => ⟨rfl, rfl⟩
  own := fun q _ => ⟨[], by cases hp <;> exact .nil, rfl, by simp [refResults], by simp [hashResults]⟩

theorem Part.before {F d ts parent hp props st ids props' st' l}
    (h : Part F d ts parent hp props st ids props' st' l) (hb : Before parent st) : Before parent st' :=
  ⟨h.keys, h.pending, fun q hq => Nat.lt_of_lt_of_le (hb.parent q hq) h.le⟩

theorem setValues_append (props : Map Bytes (Value Nat)) (rs rs' : List (PropRes Nat)) :
    setValues (setValues props rs) rs' = setValues props (rs ++ rs') := by
  simp [setValues, List.foldl_append]

/-- A part after a part. `hp'` tells whether a Properties tag has been read after the first. -/
theorem Part.cons {F d t ts parent hp hp' props st ids props1 st1 l ids' props2 st2 l'} (hb : Before parent st)
    (h1 : Part F d [t] parent hp props st ids props1 st1 l)
    (h2 : Part F d ts parent hp' props1 st1 ids' props2 st2 l')
    (hh : parent.isSome → hp' = (hp || decide (t.head.startName = str "Properties"))) :
    Part F d (t :: ts) parent hp props st (ids ++ ids') props2 st2 (l ++ l') where
  le := Nat.le_trans h1.le h2.le
  keys := h2.keys
  new := by
    have a := h1.le
    have b := h2.le
    rw [List.map_append, h1.new, h2.new,
      show st2.heap.length - st.heap.length = (st1.heap.length - st.heap.length) + (st2.heap.length - st1.heap.length) by omega,
      ← List.range'_append_1, show st.heap.length + (st1.heap.length - st.heap.length) = st1.heap.length by omega]
  old := fun q hq => by
    rw [h2.old q (Nat.lt_of_lt_of_le hq h1.le), h1.old q hq]
  lookup := by rw [h2.lookup, h1.lookup, List.foldl_append]
  pending := h2.pending
  builds := by
    have mem : ∀ p ∈ l.map Prod.fst, st.heap.length ≤ p ∧ p < st1.heap.length := by
      intro p hp
      rw [h1.new, List.mem_range'_1] at hp
      have := h1.le
      omega
    refine builds_append (ts := [t]) (builds_mono h1.builds ?_ ?_) h2.builds
    · intro p hp
      exact h2.old p (mem p hp).2
    · rintro p hp t inst ⟨rs, r1, r2, r3, r4⟩
      obtain ⟨o1, o2⟩ := h2.others p (mem p hp).2 (by
        intro e
        have := hb.parent p e
        have := (mem p hp).1
        omega)
      exact ⟨rs, r1, r2, by rw [o1]; exact r3, by rw [o2]; exact r4⟩
  others := fun q hq hne => by
    obtain ⟨a1, a2⟩ := h1.others q hq hne
    obtain ⟨b1, b2⟩ := h2.others q (Nat.lt_of_lt_of_le hq h1.le) hne
    exact ⟨by rw [b1, a1], by rw [b2, a2]⟩
  own := fun q hq => by
    obtain ⟨rs, a1, a2, a3, a4⟩ := h1.own q hq
    obtain ⟨rs', b1, b2, b3, b4⟩ := h2.own q hq
    have hh := hh (by rw [hq]; rfl)
    refine ⟨rs ++ rs', ?_, ?_, ?_, ?_⟩
    · cases hp with
      | true =>
        simp only [Bool.true_or] at hh
        subst hh
        simp only [if_true] at a1 b1 ⊢
        cases a1; cases b1; exact .nil
      | false =>
        simp only [Bool.false_or] at hh
        simp only [Bool.false_eq_true, if_false] at a1 ⊢
        by_cases ht : t.head.startName = str "Properties"
        · simp only [ht, decide_true] at hh
          subst hh
          rw [propertyTags_cons_eq ht] at a1 ⊢
          simp only [if_true] at b1
          cases b1
          simpa using a1
        · simp only [ht, decide_false] at hh
          subst hh
          rw [propertyTags_cons_ne ht] at a1 ⊢
          simp only [Bool.false_eq_true, if_false] at b1
          cases a1
          simpa using b1
    · rw [b2, a2, setValues_append]
    · rw [b3, a3]; simp [refResults]
    · rw [b4, a4]; simp [hashResults]

/-- A tag that is skipped. -/
theorem Part.skip {F : FloatText} {d : Bool} {parent : Option Nat} {hp : Bool} {props st} {t : Tag} (hb : Before parent st)
    (h1 : t.head.startName = str "Item" → attrValue t.head.attr (str "class") = none)
    (h2 : parent.isSome → hp = false → t.head.startName ≠ str "Properties") :
    Part F d [t] parent hp props st [] props st [] where
  le := Nat.le_refl _
  keys := hb.keys
  new := by simp
  old := fun _ _ => rfl
  lookup := rfl
  pending := hb.pending
  builds := .skip h1 .nil
  others := fun _ _ _ => ⟨rfl, rfl⟩
  own := fun q hq => ⟨[], by
    cases hp with
    | true => exact .nil
    | false =>
      rw [propertyTags_cons_ne (h2 (by rw [hq]; rfl) rfl)]
      exact .nil, rfl, by simp [refResults], by simp [hashResults]⟩

theorem get?_range {h : Heap Nat} (hk : h.map Prod.fst = List.range h.length) (q : Nat) : (h.get? q).isSome ↔ q < h.length := by
  rw [Map.get?_isSome, hk, List.mem_range]

theorem set_new_length {h : Heap Nat} (hk : h.map Prod.fst = List.range h.length) (v : Inst Nat) :
    (h.set h.length v).length = h.length + 1 ∧ (h.set h.length v).map Prod.fst = List.range (h.length + 1) := by
  have hn : h.length ∉ h.map Prod.fst := by rw [hk]; simp
  have e : (h.set h.length v).map Prod.fst = List.range (h.length + 1) := by
    rw [Map.map_fst_set, if_neg hn, hk, List.range_succ]
  refine ⟨?_, e⟩
  have := congrArg List.length e
  simpa using this

mutual
theorem getItems_part (F : FloatText) (d : Bool) : ∀ (ts : List Tag) (parent : Option Nat) (hp : Bool)
    (props : Map Bytes (Value Nat)) (st : DecState) (ids : List Nat) (props' : Map Bytes (Value Nat)) (st' : DecState),
    getItems F d ts parent hp props st = .ok (ids, props', st') → Before parent st →
    ∃ l, Part F d ts parent hp props st ids props' st' l
  | [], parent, hp, props, st, ids, props', st', e, hb => by
    rw [getItems.eq_def] at e
    simp only [Res.ok.injEq, Prod.mk.injEq] at e
    obtain ⟨rfl, rfl, rfl⟩ := e
    exact ⟨[], .nil hb⟩
  | t :: ts, parent, hp, props, st, ids, props', st', e, hb => by
    rw [getItems.eq_def] at e
    simp only at e
    rcases h1 : getItem F d t parent hp props st with ⟨ids1, hp1, props1, st1⟩ | x | _ <;> simp only [h1] at e
    · rcases h2 : getItems F d ts parent hp1 props1 st1 with ⟨ids2, props2, st2⟩ | x | _ <;> simp only [h2] at e
      · simp only [Res.ok.injEq, Prod.mk.injEq] at e
        obtain ⟨rfl, rfl, rfl⟩ := e
        obtain ⟨l, p1, hh⟩ := getItem_part F d t parent hp props st ids1 hp1 props1 st1 h1 hb
        obtain ⟨l', p2⟩ := getItems_part F d ts parent hp1 props1 st1 ids2 _ _ h2 (p1.before hb)
        exact ⟨l ++ l', p1.cons hb p2 hh⟩
      · cases e
      · cases e
    · cases e
    · cases e
theorem getItem_part (F : FloatText) (d : Bool) : ∀ (t : Tag) (parent : Option Nat) (hp : Bool)
    (props : Map Bytes (Value Nat)) (st : DecState) (ids : List Nat) (hp' : Bool) (props' : Map Bytes (Value Nat))
    (st' : DecState), getItem F d t parent hp props st = .ok (ids, hp', props', st') → Before parent st →
    ∃ l, Part F d [t] parent hp props st ids props' st' l ∧
      (parent.isSome → hp' = (hp || decide (t.head.startName = str "Properties")))
  | ⟨h, ts⟩, parent, hp, props, st, ids, hp', props', st', e, hb => by
    rw [getItem.eq_def] at e
    simp only at e
    split at e
    · rename_i hn
      have hnp : h.startName ≠ str "Properties" := by rw [hn]; decide
      split at e
      · rename_i hc
        simp only [Res.ok.injEq, Prod.mk.injEq] at e
        obtain ⟨rfl, rfl, rfl, rfl⟩ := e
        exact ⟨[], .skip hb (fun _ => hc) (fun _ _ => hnp), fun _ => by simp [Tag.head, hnp]⟩
      · rename_i cls hc
        rcases hg : getItems F d ts (some st.heap.length) false [] (enterItem cls (attrValue h.attr (str "referent")) st) with
          ⟨kids, own, st1⟩ | x | _ <;> simp only [hg] at e
        · simp only [Res.ok.injEq, Prod.mk.injEq] at e
          obtain ⟨rfl, rfl, rfl, rfl⟩ := e
          generalize hst0 : enterItem cls (attrValue h.attr (str "referent")) st = st0 at hg
          obtain ⟨s1, s2⟩ := set_new_length hb.keys
            { className := cls, reference := (attrValue h.attr (str "referent")).getD [] }
          have e1 : st0.heap.length = st.heap.length + 1 := by subst hst0; exact s1
          have e2 : st0.heap.map Prod.fst = List.range st0.heap.length := by rw [e1]; subst hst0; exact s2
          have e3 : st0.propRefs = st.propRefs := by subst hst0; rfl
          have e4 : st0.stringRefs = st.stringRefs := by subst hst0; rfl
          have e5 : ∀ q, q < st.heap.length → st0.heap.get? q = st.heap.get? q := by
            intro q hq
            subst hst0
            simp only [enterItem]
            rw [Map.get?_set_ne _ _ (by omega)]
          have hb0 : Before (some st.heap.length) st0 := by
            refine ⟨e2, ?_, ?_⟩
            · have : PendingBelow st.heap.length st0 := by
                simp only [PendingBelow, e3, e4]; exact hb.pending
              exact this.mono (by omega)
            · intro q hq
              cases hq
              omega
          obtain ⟨l, P⟩ := getItems_part F d ts (some st.heap.length) false [] st0 kids own st1 hg hb0
          have hle := P.le
          obtain ⟨rs, r1, r2, r3, r4⟩ := P.own _ rfl
          obtain ⟨o, ho⟩ := Option.isSome_iff_exists.1 ((get?_range P.keys st.heap.length).2 (by omega))
          generalize hfin : (⟨cls, (attrValue h.attr (str "referent")).getD [], false, own, kids⟩ : Inst Nat) = fin
          have k1 : (st1.heap.set st.heap.length fin).map Prod.fst = st1.heap.map Prod.fst := by
            rw [Map.map_fst_set, if_pos (Map.get?_isSome.1 (by rw [ho]; rfl))]
          have k2 : (st1.heap.set st.heap.length fin).length = st1.heap.length := by
            have := congrArg List.length k1
            simpa using this
          refine ⟨(st.heap.length, fin) :: l, ⟨?_, ?_, ?_, ?_, ?_, ?_, ?_, ?_, ?_⟩, fun _ => by simp [Tag.head, hnp]⟩
          · simp only; omega
          · simp only; rw [k1, k2]; exact P.keys
          · simp only [List.map_cons, P.new, k2]
            rw [show st1.heap.length - st.heap.length = (st1.heap.length - st0.heap.length) + 1 by omega, List.range'_succ, e1]
          · intro q hq
            simp only
            rw [Map.get?_set_ne _ _ (by omega), P.old q (by omega), e5 q hq]
          · simp only [List.foldl_cons]
            rw [P.lookup]
            congr 1
            subst hst0
            subst hfin
            rfl
          · have := P.pending
            simp only [PendingBelow, k2]
            exact this
          · have mem : ∀ p ∈ l.map Prod.fst, st.heap.length < p := by
              intro p hp
              rw [P.new, List.mem_range'_1] at hp
              omega
            have := Builds.item (h := st1.heap.set st.heap.length fin) (K := Pending F d { st1 with heap := st1.heap.set st.heap.length fin })
              (t := ⟨h, ts⟩) (ts := []) (ps := []) (rest := []) (p := st.heap.length) (inst := fin) (below := l)
              hn (by subst hfin; exact hc) (by subst hfin; rfl) (by subst hfin; rfl) (Map.get?_set_self _ _ _)
              ⟨rs, by simpa using r1, by subst hfin; exact r2, by
                simp only
                rw [r3, e3, entriesOf_below hb.pending.1 (Nat.le_refl _)]; rfl, by
                simp only
                rw [r4, e4, entriesOf_below hb.pending.2 (Nat.le_refl _)]; rfl⟩
              (by
                have hk : fin.children = kids := by subst hfin; rfl
                rw [hk]
                refine builds_mono P.builds ?_ ?_
                · intro p hp
                  have := mem p hp
                  rw [Map.get?_set_ne _ _ (by omega)]
                · intro p hp t inst hK; exact hK)
              .nil
            simpa using this
          · intro q hq hne
            obtain ⟨a1, a2⟩ := P.others q (by omega) (by simp only [ne_eq, Option.some.injEq]; omega)
            simp only
            exact ⟨by rw [a1, e3], by rw [a2, e4]⟩
          · intro q hq
            have hlt := hb.parent q hq
            obtain ⟨a1, a2⟩ := P.others q (by omega) (by simp only [ne_eq, Option.some.injEq]; omega)
            refine ⟨[], ?_, rfl, ?_, ?_⟩
            · cases hp
              · have := propertyTags_cons_ne (t := ⟨h, ts⟩) (ts := []) hnp
                simp only [Bool.false_eq_true, if_false, this]
                exact .nil
              · exact .nil
            · simp only; rw [a1, e3]; simp [refResults]
            · simp only; rw [a2, e4]; simp [hashResults]
        · cases e
        · cases e
    · rename_i hn
      split at e
      · rename_i hprop
        split at e
        · simp only [Res.ok.injEq, Prod.mk.injEq] at e
          obtain ⟨rfl, rfl, rfl, rfl⟩ := e
          exact ⟨[], .skip hb (fun e => absurd e hn) (by simp), by simp⟩
        · rename_i p
          split at e
          · rename_i hpt
            simp only [Res.ok.injEq, Prod.mk.injEq] at e
            obtain ⟨rfl, rfl, rfl, rfl⟩ := e
            exact ⟨[], .skip hb (fun e => absurd e hn) (by simp [hpt]), by simp [hpt]⟩
          · rename_i hpf
            simp only [Bool.not_eq_true] at hpf
            subst hpf
            rcases hg : getProps F d p ts props st with ⟨props1, st1⟩ | x | _ <;> simp only [hg] at e
            · simp only [Res.ok.injEq, Prod.mk.injEq] at e
              obtain ⟨rfl, rfl, rfl, rfl⟩ := e
              obtain ⟨rs, r1, r2, r3, r4, r5, r6⟩ := getProps_spec _ _ _ _ _ hg
              have hp := hb.parent p rfl
              have ent : ∀ (q : Nat) (es : List (Bytes × Bytes)),
                  entriesOf q (es.map (fun e => (⟨some p, e.1, e.2⟩ : PropRef Nat))) = if q = p then es else [] := by
                intro q es
                induction es with
                | nil => simp [entriesOf]
                | cons x es ih =>
                  simp only [entriesOf] at ih
                  simp only [entriesOf, List.map_cons, List.filter_cons, Option.some.injEq, decide_eq_true_eq]
                  by_cases hqp : q = p
                  · subst hqp
                    simp only [if_true] at ih ⊢
                    simp [ih]
                  · have : ¬ p = q := fun e => hqp e.symm
                    simp only [this, hqp, if_false] at ih ⊢
                    exact ih
              refine ⟨[], ⟨?_, ?_, ?_, ?_, ?_, ?_, ?_, ?_, ?_⟩, fun _ => by simp [Tag.head, hprop]⟩
              · rw [r3]; exact Nat.le_refl _
              · rw [r3]; exact hb.keys
              · rw [r3]; simp
              · rw [r3]; exact fun _ _ => rfl
              · rw [r4]; rfl
              · rw [r3]
                constructor
                · rw [r5]
                  intro r hr
                  rcases List.mem_append.1 hr with hr | hr
                  · exact hb.pending.1 r hr
                  · obtain ⟨x, -, rfl⟩ := List.mem_map.1 hr
                    exact ⟨p, rfl, hp⟩
                · rw [r6]
                  intro r hr
                  rcases List.mem_append.1 hr with hr | hr
                  · exact hb.pending.2 r hr
                  · obtain ⟨x, -, rfl⟩ := List.mem_map.1 hr
                    exact ⟨p, rfl, hp⟩
              · exact .skip (fun e => absurd e hn) .nil
              · intro q hq hne
                have hqp : q ≠ p := fun e => hne (by rw [e])
                rw [r5, r6, entriesOf_append, entriesOf_append, ent, ent, if_neg hqp, if_neg hqp]
                simp
              · intro q hq
                cases hq
                refine ⟨rs, ?_, r2, ?_, ?_⟩
                · have := propertyTags_cons_eq (t := ⟨h, ts⟩) (ts := []) hprop
                  simp only [Bool.false_eq_true, if_false, this]
                  exact r1
                · rw [r5, entriesOf_append, ent, if_pos rfl]
                · rw [r6, entriesOf_append, ent, if_pos rfl]
            · cases e
            · cases e
      · rename_i hnp
        simp only [Res.ok.injEq, Prod.mk.injEq] at e
        obtain ⟨rfl, rfl, rfl, rfl⟩ := e
        exact ⟨[], .skip hb (fun e => absurd e hn) (fun _ _ => hnp), fun _ => by simp [Tag.head, hnp]⟩
end

end Rbxlx

import Verif.Rbxlx.DecodeSpec
/-!
# The XML codec decodes what the tags say: shared strings, references, metadata
-/
namespace Rbxlx
open Go Rbxfile Spec

/-! ### assignments in a map -/

theorem foldl_set_last {κ ν : Type} [DecidableEq κ] (n : κ) : ∀ (as : List (κ × ν)) (m : Map κ ν),
    (as.foldl (fun (m : Map κ ν) a => m.set a.1 a.2) m).get? n =
      (((as.filter fun a => decide (a.1 = n)).getLast?).map Prod.snd).or (m.get? n) := by
  intro as
  induction as with
  | nil => intro m; simp
  | cons a as ih =>
    intro m
    obtain ⟨k, v⟩ := a
    rw [List.foldl_cons, ih, List.filter_cons, Map.get?_set]
    by_cases hk : k = n
    · subst hk
      simp only [decide_true, if_true, List.getLast?_cons]
      cases (as.filter fun a => decide (a.1 = k)).getLast? <;> simp
    · have : ¬ n = k := fun e => hk e.symm
      simp [hk, this]

/-- Assignments to properties of instances. -/
def setAll (as : List (Nat × Bytes × Value Nat)) (h : Heap Nat) : Heap Nat :=
  as.foldl (fun h a => setProperty h ⟨some a.1, a.2.1, []⟩ a.2.2) h

/-- The assignments to an instance. -/
def assignmentsOf (p : Nat) (as : List (Nat × Bytes × Value Nat)) : List (Bytes × Value Nat) :=
  (as.filter fun a => decide (a.1 = p)).map Prod.snd

/-- The instance with assignments to its properties. -/
def Inst.assign (i : Inst Nat) (as : List (Bytes × Value Nat)) : Inst Nat :=
  { i with properties := as.foldl (fun (m : Map Bytes (Value Nat)) a => m.set a.1 a.2) i.properties }

theorem setProperty_look (h : Heap Nat) (q : Nat) (n r : Bytes) (v : Value Nat) (p : Nat) :
    (setProperty h ⟨some q, n, r⟩ v).get? p =
      (h.get? p).map fun i => if q = p then { i with properties := i.properties.set n v } else i := by
  simp only [setProperty]
  split
  · rename_i hq
    by_cases e : q = p
    · subst e; simp [hq]
    · cases h.get? p <;> simp [e]
  · rename_i i hq
    rw [Map.get?_set]
    by_cases e : p = q
    · subst e; simp [hq]
    · have : ¬ q = p := fun x => e x.symm
      cases h.get? p <;> simp [e, this]

theorem setAll_get (p : Nat) : ∀ (as : List (Nat × Bytes × Value Nat)) (h : Heap Nat),
    (setAll as h).get? p = (h.get? p).map fun i => Inst.assign i (assignmentsOf p as) := by
  intro as
  induction as with
  | nil => intro h; simp [setAll, assignmentsOf, Inst.assign]
  | cons a as ih =>
    intro h
    obtain ⟨q, n, v⟩ := a
    have : setAll ((q, n, v) :: as) h = setAll as (setProperty h ⟨some q, n, []⟩ v) := rfl
    rw [this, ih, setProperty_look, Option.map_map]
    congr 1
    funext i
    simp only [Function.comp, assignmentsOf, List.filter_cons]
    by_cases e : q = p
    · subst e; simp [Inst.assign]
    · simp [e, Inst.assign]

theorem setProperty_fst (h : Heap Nat) (r : PropRef Nat) (v : Value Nat) :
    (setProperty h r v).map Prod.fst = h.map Prod.fst := by
  simp only [setProperty]
  split
  · rfl
  split
  · rfl
  · rename_i hq
    rw [Map.map_fst_set, if_pos (Map.get?_isSome.1 (by rw [hq]; rfl))]

theorem setAll_keys : ∀ (as : List (Nat × Bytes × Value Nat)) (h : Heap Nat),
    (setAll as h).map Prod.fst = h.map Prod.fst := by
  intro as
  induction as with
  | nil => intro h; rfl
  | cons a as ih =>
    intro h
    have : setAll (a :: as) h = setAll as (setProperty h ⟨some a.1, a.2.1, []⟩ a.2.2) := rfl
    rw [this, ih, setProperty_fst]

theorem setProperty_congr (h : Heap Nat) (q : Nat) (n r r' : Bytes) (v : Value Nat) :
    setProperty h ⟨some q, n, r⟩ v = setProperty h ⟨some q, n, r'⟩ v := rfl

/-! ### the phases -/

/-- The assignments of a list of pending entries. -/
def entryAssigns (f : Bytes → Value Nat) (refs : List (PropRef Nat)) : List (Nat × Bytes × Value Nat) :=
  refs.filterMap fun r => r.inst.map fun q => (q, r.property, f r.reference)

theorem entryAssigns_of (f : Bytes → Value Nat) (p : Nat) (refs : List (PropRef Nat)) :
    assignmentsOf p (entryAssigns f refs) = (entriesOf p refs).map fun e => (e.1, f e.2) := by
  induction refs with
  | nil => rfl
  | cons r refs ih =>
    obtain ⟨q, n, x⟩ := r
    simp only [entryAssigns, assignmentsOf, entriesOf] at ih
    cases q with
    | none => simp only [entryAssigns, assignmentsOf, entriesOf, List.filterMap_cons, Option.map_none, List.filter_cons]; simpa using ih
    | some q =>
      simp only [entryAssigns, assignmentsOf, entriesOf, List.filterMap_cons, Option.map_some, List.filter_cons,
        Option.some.injEq]
      by_cases e : q = p
      · simp [e, ih]
      · simp [e, ih]

theorem resolve_eq (lookup : References Nat) : ∀ (refs : List (PropRef Nat)) (h : Heap Nat),
    refs.foldl (fun h pr => (lookup.resolve pr h).2) h =
      setAll (entryAssigns (fun x => .reference (lookup.at x)) refs) h := by
  intro refs
  induction refs with
  | nil => intro h; rfl
  | cons r refs ih =>
    intro h
    obtain ⟨q, n, x⟩ := r
    rw [List.foldl_cons, ih]
    cases q with
    | none => rfl
    | some q =>
      have : (lookup.resolve ⟨some q, n, x⟩ h).2 = setProperty h ⟨some q, n, []⟩ (.reference (lookup.at x)) := by
        simp only [References.resolve, setProperty]
        cases h.get? q <;> rfl
      rw [this]
      rfl

theorem assignShared_assigns (key value : Bytes) : ∀ (refs : List (PropRef Nat)) (h : Heap Nat),
    assignShared refs key value h =
      setAll (entryAssigns (fun _ => .sharedString value) (refs.filter fun r => decide (r.reference = key))) h := by
  intro refs
  simp only [assignShared]
  induction refs with
  | nil => intro h; rfl
  | cons r refs ih =>
    intro h
    rw [List.foldl_cons, ih, List.filter_cons]
    obtain ⟨q, n, x⟩ := r
    by_cases e : x = key
    · simp only [e, if_true, decide_true]
      cases q <;> rfl
    · simp [e]

/-- The assignments of the shared strings. -/
def sharedAssigns (refs : List (PropRef Nat)) (es : List (Bytes × Bytes)) : List (Nat × Bytes × Value Nat) :=
  es.flatMap fun e => entryAssigns (fun _ => .sharedString e.2) (refs.filter fun r => decide (r.reference = e.1))

theorem setAll_append (as bs : List (Nat × Bytes × Value Nat)) (h : Heap Nat) :
    setAll (as ++ bs) h = setAll bs (setAll as h) := by
  simp [setAll, List.foldl_append]

theorem sharedTags_assigns (refs : List (PropRef Nat)) : ∀ (ts : List Tag) (h : Heap Nat),
    ts.foldl (sharedTag refs) h = setAll (sharedAssigns refs (ts.filterMap sharedEntry)) h := by
  intro ts
  induction ts with
  | nil => intro h; rfl
  | cons t ts ih =>
    intro h
    rw [List.foldl_cons, ih, List.filterMap_cons]
    by_cases hs : t.head.startName = str "SharedString"
    · cases ha : attrValue t.head.attr (str "md5") with
      | none => simp [hs, ha, sharedTag, sharedEntry]
      | some hash =>
        cases hk : b64Decode hash with
        | none => simp [hs, ha, hk, sharedTag, sharedEntry]
        | some key =>
          cases hv : b64Decode (getContent t) with
          | none => simp [hs, ha, hk, hv, sharedTag, sharedEntry]
          | some value =>
            simp only [hs, ha, hk, hv, sharedTag, sharedEntry, if_true, ne_eq, not_true_eq_false, if_false]
            rw [assignShared_assigns, ← setAll_append]
            rfl
    · simp [hs, sharedTag, sharedEntry]

theorem rootTags_eq (refs : List (PropRef Nat)) : ∀ (ts : List Tag) (m : Map Bytes Bytes) (h : Heap Nat),
    rootTags refs ts m h = ((metaPairs ts).foldl (fun (m : Map Bytes Bytes) a => m.set a.1 a.2) m,
      setAll (sharedAssigns refs (sharedEntries ts)) h) := by
  intro ts
  induction ts with
  | nil => intro m h; rfl
  | cons t ts ih =>
    intro m h
    simp only [rootTags]
    have hm : str "SharedStrings" ≠ str "Meta" := by decide
    by_cases h1 : t.head.startName = str "Meta"
    · have h2 : t.head.startName ≠ str "SharedStrings" := by rw [h1]; exact hm.symm
      simp only [h1, if_true]
      have hs : sharedEntries (t :: ts) = sharedEntries ts := by
        simp only [sharedEntries, List.flatMap_cons, if_neg h2, List.nil_append]
      cases ha : attrValue t.head.attr (str "name") with
      | none =>
        simp only
        rw [ih, hs]
        simp [metaPairs, h1, ha]
      | some key =>
        simp only
        rw [ih, hs]
        simp [metaPairs, h1, ha]
    · have hp : metaPairs (t :: ts) = metaPairs ts := by simp [metaPairs, h1]
      simp only [h1, if_false, hp]
      by_cases h2 : t.head.startName = str "SharedStrings"
      · simp only [h2, if_true]
        rw [ih, sharedTags_assigns, ← setAll_append]
        have hs : sharedEntries (t :: ts) = t.tags.filterMap sharedEntry ++ sharedEntries ts := by
          simp only [sharedEntries, List.flatMap_cons, h2, if_true]
        rw [hs]
        congr 2
        simp only [sharedAssigns, List.flatMap_append]
      · simp only [h2, if_false]
        rw [ih]
        have hs : sharedEntries (t :: ts) = sharedEntries ts := by
          simp only [sharedEntries, List.flatMap_cons, if_neg h2, List.nil_append]
        rw [hs]

/-! ### the value of a property -/

theorem addRef_at (r : Bytes) : ∀ (l : Map Nat (Inst Nat)) (refs : References Nat),
    References.at (l.foldl addRef refs) r =
      if isEmptyReference r = true then refs.at r
      else (((l.filter fun x => decide (x.2.reference = r)).getLast?).map Prod.fst).or (refs.at r) := by
  intro l
  induction l with
  | nil => intro refs; simp
  | cons x l ih =>
    intro refs
    rw [List.foldl_cons, ih, List.filter_cons]
    by_cases he : isEmptyReference r = true
    · simp only [he, if_true, addRef]
      split
      · rename_i hc
        rw [References.at_set, if_neg]
        rintro rfl
        rw [he] at hc
        exact absurd hc.2 (by simp)
      · rfl
    · simp only [he, if_false]
      by_cases hx : x.2.reference = r
      · have hc : x.2.reference ≠ [] ∧ isEmptyReference x.2.reference = false := by
          rw [hx]
          refine ⟨?_, by simpa using he⟩
          rintro rfl
          exact he (by decide)
        have ha : addRef refs x = refs.set r (some x.1) := by
          unfold addRef; rw [if_pos hc, hx]
        rw [ha, References.at_set]
        simp only [hx, if_true, decide_true, List.getLast?_cons]
        cases (l.filter fun x => decide (x.2.reference = r)).getLast? <;> simp
      · have : ∀ refs : References Nat, (addRef refs x).at r = refs.at r := by
          intro refs
          simp only [addRef]
          split
          · rw [References.at_set, if_neg (fun e => hx e.symm)]
          · rfl
        simp [hx, this]

theorem setValues_get (n : Bytes) (rs : List (PropRes Nat)) : (setValues [] rs).get? n = lastValue rs n := by
  have gen : ∀ (rs : List (PropRes Nat)) (m : Map Bytes (Value Nat)),
      (setValues m rs).get? n = (lastValue rs n).or (m.get? n) := by
    intro rs
    induction rs with
    | nil => intro m; simp [setValues, lastValue]
    | cons r rs ih =>
      intro m
      cases r with
      | value k v =>
        have : setValues m (.value k v :: rs) = setValues (m.set k v) rs := rfl
        rw [this, ih, Map.get?_set]
        simp only [lastValue, List.filterMap_cons]
        by_cases hk : k = n
        · subst hk
          simp only [if_true, List.getLast?_cons]
          cases (List.filterMap (fun r => match r with
            | PropRes.value n v => if n = k then some v else none
            | _ => none) rs).getLast? <;> simp
        · have : ¬ n = k := fun e => hk e.symm
          simp [hk, this]
      | nothing => exact ih m
      | ref a b => exact ih m
      | shared a b => exact ih m
  rw [gen]; simp [Map.get?]

theorem refResults_filter (n : Bytes) (rs : List (PropRes Nat)) :
    ((refResults rs).filter fun a => decide (a.1 = n)).map Prod.snd = refsTo rs n := by
  induction rs with
  | nil => rfl
  | cons r rs ih =>
    simp only [refResults, refsTo] at ih
    cases r with
    | ref k x =>
      simp only [refResults, refsTo, List.filterMap_cons, List.filter_cons]
      by_cases hk : k = n
      · simp [hk, ih]
      · simp [hk, ih]
    | _ => simpa [refResults, refsTo] using ih

theorem hashResults_mem (n x : Bytes) (rs : List (PropRes Nat)) : (n, x) ∈ hashResults rs ↔ x ∈ hashesOf rs n := by
  simp only [hashResults, hashesOf, List.mem_filterMap]
  constructor
  · rintro ⟨r, hr, e⟩
    refine ⟨r, hr, ?_⟩
    cases r <;> simp at e ⊢
    exact ⟨e.1, e.2⟩
  · rintro ⟨r, hr, e⟩
    refine ⟨r, hr, ?_⟩
    cases r <;> simp at e ⊢
    exact ⟨e.1, e.2⟩

theorem sharedAssigns_of (p : Nat) (refs : List (PropRef Nat)) (es : List (Bytes × Bytes)) :
    assignmentsOf p (sharedAssigns refs es) = es.flatMap fun e =>
      ((entriesOf p refs).filter fun x => decide (x.2 = e.1)).map fun x => (x.1, .sharedString e.2) := by
  induction es with
  | nil => rfl
  | cons e es ih =>
    have : assignmentsOf p (sharedAssigns refs (e :: es)) =
        assignmentsOf p (entryAssigns (fun _ => .sharedString e.2) (refs.filter fun r => decide (r.reference = e.1))) ++
        assignmentsOf p (sharedAssigns refs es) := by
      simp [sharedAssigns, assignmentsOf]
    rw [this, ih, entryAssigns_of, List.flatMap_cons]
    congr 1
    simp only [entriesOf, List.filter_map, List.map_map, List.filter_filter]
    congr 1
    apply List.filter_congr
    intro r _
    simp only [Function.comp, Bool.and_comm]

theorem shared_last (n : Bytes) (hs : List (Bytes × Bytes)) : ∀ es : List (Bytes × Bytes),
    (((es.flatMap fun e => (hs.filter fun x => decide (x.2 = e.1)).map fun x =>
      (x.1, (Value.sharedString e.2 : Value Nat))).filter fun a => decide (a.1 = n)).getLast?).map Prod.snd =
    ((es.filter fun e => decide ((n, e.1) ∈ hs)).getLast?).map fun e => Value.sharedString e.2 := by
  intro es
  induction es with
  | nil => rfl
  | cons e es ih =>
    rw [List.flatMap_cons, List.filter_append, List.getLast?_append, List.filter_cons]
    generalize hB : (List.filter (fun a => decide (a.1 = n)) (es.flatMap fun e => (hs.filter fun x => decide (x.2 = e.1)).map fun x =>
      (x.1, (Value.sharedString e.2 : Value Nat)))).getLast? = B at ih ⊢
    generalize hC : (es.filter fun e => decide ((n, e.1) ∈ hs)).getLast? = C at ih ⊢
    generalize hA : List.filter (fun a => decide (a.1 = n)) ((hs.filter fun x => decide (x.2 = e.1)).map fun x =>
      (x.1, (Value.sharedString e.2 : Value Nat))) = A
    have allA : ∀ a ∈ A, a.2 = .sharedString e.2 := by
      subst hA
      intro a ha
      obtain ⟨ha, -⟩ := List.mem_filter.1 ha
      obtain ⟨x, -, rfl⟩ := List.mem_map.1 ha
      rfl
    have memA : A ≠ [] ↔ (n, e.1) ∈ hs := by
      subst hA
      have ex : ∀ {α : Type} (L : List α), L ≠ [] ↔ ∃ a, a ∈ L := by
        intro α L; cases L <;> simp
      rw [ex]
      constructor
      · rintro ⟨a, ha⟩
        obtain ⟨ha, hn⟩ := List.mem_filter.1 ha
        obtain ⟨x, hx, rfl⟩ := List.mem_map.1 ha
        obtain ⟨hx, he⟩ := List.mem_filter.1 hx
        simp only [decide_eq_true_eq] at hn he
        rw [← hn, ← he]
        exact hx
      · intro hm
        exact ⟨(n, .sharedString e.2), List.mem_filter.2 ⟨List.mem_map.2 ⟨(n, e.1), List.mem_filter.2 ⟨hm, by simp⟩, rfl⟩, by simp⟩⟩
    by_cases hm : (n, e.1) ∈ hs
    · simp only [hm, decide_true, if_true, List.getLast?_cons, hC]
      obtain ⟨a, ha⟩ : ∃ a, A.getLast? = some a := by
        cases hl : A.getLast? with
        | none => rw [List.getLast?_eq_none_iff] at hl; exact absurd hl (memA.2 hm)
        | some a => exact ⟨a, rfl⟩
      have haM := allA a (List.mem_of_getLast? ha)
      rw [ha]
      cases hb : B with
      | none =>
        rw [hb] at ih
        cases hc : C with
        | none => simp [haM]
        | some c => rw [hc] at ih; simp at ih
      | some b =>
        rw [hb] at ih
        cases hc : C with
        | none => rw [hc] at ih; simp at ih
        | some c => rw [hc] at ih; simpa using ih
    · have : A = [] := by
        by_cases hA' : A = []
        · exact hA'
        · exact absurd (memA.1 hA') hm
      simp only [hm, decide_false, this, List.getLast?_nil, Option.or_none, Bool.false_eq_true, if_false, hC]
      exact ih

theorem builds_update {h h' : Heap Nat} {K K' : Nat → Tag → Inst Nat → Prop} (g : Nat → Inst Nat → Inst Nat)
    (g1 : ∀ p i, (g p i).className = i.className) (g2 : ∀ p i, (g p i).reference = i.reference)
    (g3 : ∀ p i, (g p i).isService = i.isService) (g4 : ∀ p i, (g p i).children = i.children)
    (hh : ∀ p, h'.get? p = (h.get? p).map (g p)) (hK : ∀ p t i, K p t i → K' p t (g p i)) {ts ps l}
    (b : Builds h K ts ps l) : Builds h' K' ts ps (l.map fun x => (x.1, g x.1 x.2)) := by
  induction b with
  | nil => exact .nil
  | skip h1 _ ih => exact .skip h1 ih
  | @item t ts ps below rest p inst h1 h2 h3 h4 h5 h6 _ _ ih1 ih2 =>
    rw [List.map_cons, List.map_append]
    refine .item h1 (by rw [g1]; exact h2) (by rw [g2]; exact h3) (by rw [g3]; exact h4) ?_ (hK _ _ _ h6)
      (by rw [g4]; exact ih1) ih2
    rw [hh, h5]; rfl

/-- What decoding a document gives. -/
theorem codecDecode_spec {F : FloatText} {d : Bool} {t : Tag} {h : Heap Nat} {root : Root Nat}
    (e : codecDecode F d (some t) = .ok (h, root)) :
    ∃ l, Builds h (fun _ => PropsOf F d t.tags l) t.tags root.instances l ∧ l.map Prod.fst = List.range h.length ∧
      h.map Prod.fst = List.range h.length ∧
      root.metadata = (metaPairs t.tags).foldl (fun (m : Map Bytes Bytes) a => m.set a.1 a.2) [] := by
  simp only [codecDecode] at e
  rcases hg : getItems F d t.tags none false [] {} with ⟨ids, props, st⟩ | x | _ <;> simp only [hg] at e
  · simp only [Res.ok.injEq, Prod.mk.injEq] at e
    obtain ⟨rfl, rfl⟩ := e
    obtain ⟨l, P⟩ := getItems_part F d t.tags none false [] {} ids props st hg
      ⟨rfl, ⟨by simp, by simp⟩, by simp⟩
    rw [rootTags_eq, resolve_eq]
    simp only
    generalize hR : entryAssigns (fun x => (.reference (st.lookup.at x) : Value Nat)) st.propRefs = R
    generalize hS : sharedAssigns st.stringRefs (sharedEntries t.tags) = S
    let g : Nat → Inst Nat → Inst Nat := fun p i => Inst.assign (Inst.assign i (assignmentsOf p S)) (assignmentsOf p R)
    have hl : (l.map fun x => (x.1, g x.1 x.2)).map Prod.fst = l.map Prod.fst := by
      rw [List.map_map]; rfl
    have hk : (setAll R (setAll S st.heap)).map Prod.fst = List.range st.heap.length := by
      rw [setAll_keys, setAll_keys]; exact P.keys
    have hlen : (setAll R (setAll S st.heap)).length = st.heap.length := by
      have := congrArg List.length hk
      simpa using this
    refine ⟨l.map fun x => (x.1, g x.1 x.2), ?_, ?_, ?_, by trivial⟩
    · refine builds_update g (fun _ _ => rfl) (fun _ _ => rfl) (fun _ _ => rfl) (fun _ _ => rfl) ?_ ?_ P.builds
      · intro p
        rw [setAll_get, setAll_get, Option.map_map]
        rfl
      · rintro p t' i ⟨rs, r1, r2, r3, r4⟩
        refine ⟨rs, r1, ?_⟩
        intro name
        have tgt : ∀ x, targetOf (l.map fun x => (x.1, g x.1 x.2)) x = st.lookup.at x := by
          intro x
          rw [P.lookup, addRef_at]
          have : References.at (({} : DecState).lookup) x = none := rfl
          simp only [targetOf, this, Option.or_none]
          congr 1
          rw [List.filter_map, List.getLast?_map, Option.map_map]
          rfl
        show (((assignmentsOf p R).foldl (fun (m : Map Bytes (Value Nat)) a => m.set a.1 a.2)
          ((assignmentsOf p S).foldl (fun (m : Map Bytes (Value Nat)) a => m.set a.1 a.2) i.properties))).get? name = _
        rw [foldl_set_last, foldl_set_last, r2, setValues_get, ← hR, ← hS, entryAssigns_of, sharedAssigns_of, r3, r4,
          shared_last, List.filter_map, List.getLast?_map, Option.map_map]
        simp only [propertyOf]
        have hrefs := refResults_filter name rs
        have e1 : (refsTo rs name).getLast? = ((refResults rs).filter fun a => decide (a.1 = name)).getLast?.map Prod.snd := by
          rw [← hrefs, List.getLast?_map]
        rw [e1]
        have e2 : (List.filter ((fun (a : Bytes × Value Nat) => decide (a.1 = name)) ∘
            fun (e : Bytes × Bytes) => (e.1, (Value.reference (st.lookup.at e.2) : Value Nat))) (refResults rs)) =
            (refResults rs).filter fun a => decide (a.1 = name) := rfl
        rw [e2]
        cases ((refResults rs).filter fun a => decide (a.1 = name)).getLast? with
        | some x => simp [tgt]
        | none =>
          simp only [Option.map_none, Option.none_or, hashResults_mem]
          cases (List.filter (fun e => decide (e.1 ∈ hashesOf rs name)) (sharedEntries t.tags)).getLast? <;> simp
    · rw [hl, P.new, hlen]
      simp [List.range_eq_range']
    · rw [hk, hlen]
  · cases e
  · cases e

end Rbxlx

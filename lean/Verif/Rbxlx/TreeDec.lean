import Verif.Rbxlx.TreeEnc
import Verif.Rbxlx.PropBack
import Verif.Rbxlx.CodecDecode
/-!
# Decoding the tags of a tree
-/
namespace Rbxlx
open Go Rbxfile Spec

variable {ρ : Type} [DecidableEq ρ]

/-! ## Properties -/

/-- The value that is set at once; references and shared strings are set later. -/
def nowValue (F : FloatText) (d : Bool) : Value ρ → Option (Value Nat)
  | .reference (some _) => none
  | .sharedString _ => none
  | v => backValue F d v

/-- The properties set at once. -/
def nowProps (F : FloatText) (d : Bool) (props : Map Bytes (Value ρ)) (ns : List Bytes) : Map Bytes (Value Nat) :=
  ns.filterMap fun n => (props.get? n).bind fun v => (nowValue F d v).map fun w => (n, w)

/-- The references to be resolved. -/
def laterRefs (R : ρ → Bytes) (p : Nat) (props : Map Bytes (Value ρ)) (ns : List Bytes) : List (PropRef Nat) :=
  ns.filterMap fun n => (props.get? n).bind fun v =>
    match v with
    | .reference (some q) => some ⟨some p, n, R q⟩
    | _ => none

/-- The shared strings to be looked up. -/
def laterShared (hash : Bytes → Bytes) (p : Nat) (props : Map Bytes (Value ρ)) (ns : List Bytes) : List (PropRef Nat) :=
  ns.filterMap fun n => (props.get? n).bind fun v =>
    match v with
    | .sharedString s => some ⟨some p, n, hash s⟩
    | _ => none

/-- What is required of properties to be read back. -/
structure PropsOk (R : ρ → Bytes) (props : Map Bytes (Value ρ)) : Prop where
  ok : props.Ok
  names : ∀ n v, props.get? n = some v → 13#8 ∉ n
  cdata : ∀ n s, props.get? n = some (.protectedString s) → ¬ [93#8, 93#8, 62#8] <:+: s
  refs : ∀ n q, props.get? n = some (.reference (some q)) → isEmptyReference (R q) = false ∧ 13#8 ∉ R q

theorem encodeValue_some (F : FloatText) (hash : Bytes → Bytes) (ref : Bytes) (v : Value ρ) :
    ∃ t, encodeValue F hash ref v = some t := by
  cases v with
  | optional t o => 
    cases o with
    | none => exact ⟨_, rfl⟩
    | some v => cases v <;> exact ⟨_, rfl⟩
  | _ => exact ⟨_, rfl⟩

theorem propTag_tidy {P : Params} {R : ρ → Bytes} {props : Map Bytes (Value ρ)} (hF : ReadableText P.F)
    (hc : ∀ n s, props.get? n = some (.protectedString s) → ¬ [93#8, 93#8, 62#8] <:+: s) {n : Bytes} {t : Tag}
    (ht : propTag P R props n = some t) : TidyTag t := by
  unfold propTag at ht
  cases hv : props.get? n with
  | none => rw [hv] at ht; cases ht
  | some v =>
    rw [hv, Option.bind_some] at ht
    obtain ⟨t', ht', rfl⟩ := Option.map_eq_some_iff.1 ht
    by_cases h1 : v.type = .reference
    · cases v <;> first | (simp [Value.type] at h1; done) | skip
      obtain ⟨t'', e, h, _⟩ := reference_back (F := P.F) (σ := Nat) (hash := P.hash) false n
        (refText R (.reference ‹_›)) (‹_› : Option ρ)
      rw [e] at ht'; cases ht'; exact h
    · by_cases h2 : v.type = .sharedString
      · cases v <;> first | (simp [Value.type] at h2; done) | skip
        rename_i s
        obtain ⟨t'', e, h, _⟩ := shared_back (F := P.F) (σ := Nat) (ρ := ρ) (hash := P.hash) false n
          (refText R (.sharedString s)) s
        rw [e] at ht'; cases ht'; exact h
      · exact (property_back (σ := Nat) hF false n ht' (fun s hs => hc n s (by rw [hv, hs])) h1 h2).1

theorem getProps_tags {P : Params} (hF : ReadableText P.F) (d : Bool) {R : ρ → Bytes} {props : Map Bytes (Value ρ)}
    (hp : PropsOk R props) (p : Nat) : ∀ (ns : List Bytes) (acc : Map Bytes (Value Nat)) (st : DecState),
    ns.Nodup → (∀ n ∈ ns, n ∉ acc.map Prod.fst) →
    getProps P.F d p (reread (ns.filterMap (propTag P R props))) acc st =
      .ok (acc ++ nowProps P.F d props ns, { st with
        propRefs := st.propRefs ++ laterRefs R p props ns
        stringRefs := st.stringRefs ++ laterShared P.hash p props ns })
  | [], acc, st, _, _ => by
    simp [reread, getProps, nowProps, laterRefs, laterShared]
  | n :: ns, acc, st, hnd, hdisj => by
    have hnd' := (List.nodup_cons.1 hnd)
    have hn : n ∉ acc.map Prod.fst := hdisj n (by simp)
    cases hv : props.get? n with
    | none =>
      have e : propTag P R props n = none := by simp [propTag, hv]
      have ih := getProps_tags hF d hp p ns acc st hnd'.2 (fun m hm => hdisj m (by simp [hm]))
      rw [List.filterMap_cons, e]
      simp only
      rw [ih]
      simp [nowProps, laterRefs, laterShared, hv]
    | some v =>
      obtain ⟨t, ht⟩ := encodeValue_some P.F P.hash (refText R v) v
      have e : propTag P R props n = some (named n t) := by simp [propTag, hv, ht]
      have hcr := Spec.normNewlines_of_no_cr (hp.names n v hv)
      rw [List.filterMap_cons, e]
      simp only [reread]
      rw [getProps]
      by_cases h1 : ∃ q, v = .reference (some q)
      · obtain ⟨q, rfl⟩ := h1
        obtain ⟨t', e', _, hg⟩ := reference_back (F := P.F) (σ := Nat) (hash := P.hash) d n
          (refText R (.reference (some q))) (some q)
        rw [e'] at ht; cases ht
        obtain ⟨r1, r2⟩ := hp.refs n q hv
        have hq : Spec.normText (refText R (.reference (some q))) = R q := Props.normText_of_no_cr r2
        rw [hg, hcr, hq, r1]
        have ih := getProps_tags hF d hp p ns acc { st with propRefs := st.propRefs ++ [⟨some p, n, R q⟩] } hnd'.2
          (fun m hm => hdisj m (by simp [hm]))
        simp only [Bool.false_eq_true, if_false, applyProp]
        rw [ih]
        simp [nowProps, laterRefs, laterShared, hv, nowValue]
      · by_cases h2 : ∃ s, v = .sharedString s
        · obtain ⟨s, rfl⟩ := h2
          obtain ⟨t', e', _, hg⟩ := shared_back (F := P.F) (σ := Nat) (ρ := ρ) (hash := P.hash) d n
            (refText R (.sharedString s)) s
          rw [e'] at ht; cases ht
          rw [hg, hcr]
          have ih := getProps_tags hF d hp p ns acc { st with stringRefs := st.stringRefs ++ [⟨some p, n, P.hash s⟩] }
            hnd'.2 (fun m hm => hdisj m (by simp [hm]))
          simp only [applyProp]
          rw [ih]
          simp [nowProps, laterRefs, laterShared, hv, nowValue]
        · have hnow : nowValue P.F d v = backValue P.F d v := by
            unfold nowValue
            split
            · exact absurd ⟨_, rfl⟩ h1
            · exact absurd ⟨_, rfl⟩ h2
            · rfl
          have hl1 : laterRefs R p props (n :: ns) = laterRefs R p props ns := by
            unfold laterRefs
            rw [List.filterMap_cons, hv, Option.bind_some]
            split
            · rfl
            · rename_i heq
              split at heq
              · exact absurd ⟨_, rfl⟩ h1
              · cases heq
          have hl2 : laterShared P.hash p props (n :: ns) = laterShared P.hash p props ns := by
            unfold laterShared
            rw [List.filterMap_cons, hv, Option.bind_some]
            split
            · rfl
            · rename_i heq
              split at heq
              · exact absurd ⟨_, rfl⟩ h2
              · cases heq
          have hg : getProperty P.F d (rereadOf (named n t)) = .ok (asProp n (backValue P.F d v : Option (Value Nat))) := by
            by_cases h3 : v.type = .reference
            · cases v <;> first | (simp [Value.type] at h3; done) | skip
              rename_i o
              cases o with
              | some q => exact absurd ⟨q, rfl⟩ h1
              | none =>
                obtain ⟨t', e', _, hg⟩ := reference_back (F := P.F) (σ := Nat) (hash := P.hash) d n
                  (refText R (.reference none : Value ρ)) (none : Option ρ)
                rw [e'] at ht; cases ht
                rw [hg, hcr]
                rfl
            · have h4 : v.type ≠ .sharedString := by
                intro h4
                cases v <;> first | (simp [Value.type] at h4; done) | exact h2 ⟨_, rfl⟩
              have := (property_back (σ := Nat) hF d n ht (fun s hs => hp.cdata n s (by rw [hv, hs])) h3 h4).2
              rw [this, hcr]
          rw [hg, hl1, hl2]
          simp only
          cases hb : (backValue P.F d v : Option (Value Nat)) with
          | none =>
            simp only [asProp, applyProp]
            have ih := getProps_tags hF d hp p ns acc st hnd'.2 (fun m hm => hdisj m (by simp [hm]))
            rw [ih]
            simp [nowProps, hv, hnow, hb]
          | some w =>
            simp only [asProp, applyProp]
            rw [show acc.set n w = acc ++ [(n, w)] from Map.set_new hn w]
            have ih := getProps_tags hF d hp p ns (acc ++ [(n, w)]) st hnd'.2 (by
              intro m hm hmem
              simp only [List.map_append, List.map_cons, List.map_nil, List.mem_append, List.mem_singleton] at hmem
              rcases hmem with hmem | rfl
              · exact hdisj m (by simp [hm]) hmem
              · exact hnd'.1 hm)
            rw [ih]
            simp [nowProps, hv, hnow, hb]

/-! ## Instances -/

/-- The decoded instance. -/
def decInst (F : FloatText) (d ex : Bool) (R : ρ → Bytes) (pos : ρ → Nat) (x : ρ × Inst ρ) : Inst Nat :=
  ⟨normNewlines x.2.className, if ex then [] else R x.1, false, nowProps F d x.2.properties (names x.2.properties),
    x.2.children.map pos⟩

/-- The instances registered by reference. -/
def lookupOf (ex : Bool) (R : ρ → Bytes) (pos : ρ → Nat) (l : Map ρ (Inst ρ)) (m : References Nat) : References Nat :=
  if ex then m else l.foldl (fun m x => m.set (R x.1) (some (pos x.1))) m

/-- The state after decoding the instances listed by `l`. -/
def decState (P : Params) (d : Bool) (R : ρ → Bytes) (pos : ρ → Nat) (l : Map ρ (Inst ρ)) (st : DecState) : DecState where
  heap := st.heap ++ l.map fun x => (pos x.1, decInst P.F d P.excludeReferent R pos x)
  lookup := lookupOf P.excludeReferent R pos l st.lookup
  propRefs := st.propRefs ++ l.flatMap fun x => laterRefs R (pos x.1) x.2.properties (names x.2.properties)
  stringRefs := st.stringRefs ++ l.flatMap fun x => laterShared P.hash (pos x.1) x.2.properties (names x.2.properties)

theorem decState_nil (P : Params) (d : Bool) (R : ρ → Bytes) (pos : ρ → Nat) (st : DecState) :
    decState P d R pos [] st = st := by
  simp [decState, lookupOf]

theorem decState_append (P : Params) (d : Bool) (R : ρ → Bytes) (pos : ρ → Nat) (a b : Map ρ (Inst ρ)) (st : DecState) :
    decState P d R pos (a ++ b) st = decState P d R pos b (decState P d R pos a st) := by
  simp only [decState, lookupOf, List.map_append, List.flatMap_append, List.append_assoc, List.foldl_append]
  split <;> simp_all

theorem set_middle {ν : Type} : ∀ (a : Map Nat ν) (k : Nat) (x v : ν) (b : Map Nat ν), k ∉ a.map Prod.fst →
    Map.set (a ++ (k, x) :: b) k v = a ++ (k, v) :: b
  | [], k, x, v, b, _ => by simp [Map.set]
  | (k', x') :: a, k, x, v, b, h => by
    have h1 : k' ≠ k := by intro e; exact h (by simp [e])
    have h2 : k ∉ a.map Prod.fst := by intro e; exact h (by simp at e ⊢; exact .inr e)
    simp only [List.cons_append, Map.set, if_neg h1, set_middle a k x v b h2]

theorem item_attr (P : Params) (cls ref : Bytes) (props kids : List Tag) :
    attrValue (rereadOf (itemTag P cls ref props kids)).head.attr (str "class") = some (normNewlines cls) ∧
    attrValue (rereadOf (itemTag P cls ref props kids)).head.attr (str "referent") =
      (if P.excludeReferent then none else some (normNewlines ref)) ∧ TidyHead (itemTag P cls ref props kids).head := by
  have c1 : checkName .attr (str "class") = true := by decide
  have c2 : checkName .attr (str "referent") = true := by decide
  have n1 : FirstNot [47#8] (str "class") := by
    intro c t h
    rw [show str "class" = [99#8, 108#8, 97#8, 115#8, 115#8] by decide] at h; cases h; decide
  have n2 : FirstNot [47#8] (str "referent") := by
    intro c t h
    rw [show str "referent" = [114#8, 101#8, 102#8, 101#8, 114#8, 101#8, 110#8, 116#8] by decide] at h; cases h; decide
  have ne : (str "class" = str "referent") = False := by decide
  have ho : okName (str "Item") = true := by decide
  have hset : setAttrValue [(str "class", cls), (str "referent", ref)] (str "referent") [] = [(str "class", cls)] := by
    simp [setAttrValue, List.findIdx?_cons, ne]
  have hb : ∀ a, (∀ x ∈ a, checkName .attr x.1 = true ∧ FirstNot [47#8] x.1) →
      TidyHead { startName := str "Item", attr := a } := fun a ha =>
    ⟨rfl, rfl, (okName_spec ho).1, (okName_spec ho).2, ha, by simp⟩
  cases hx : P.excludeReferent with
  | true =>
    simp only [itemTag, hx, if_true, hset, rereadOf, headBack, Tag.head_mk]
    rw [attrsBack_tidy (by simp [c1])]
    exact ⟨by simp [attrValue], by simp [attrValue, ne], hb _ (by simpa using ⟨c1, n1⟩)⟩
  | false =>
    simp only [itemTag, hx, Bool.false_eq_true, if_false, rereadOf, headBack, Tag.head_mk]
    rw [attrsBack_tidy (by simp [c1, c2])]
    exact ⟨by simp [attrValue], by simp [attrValue, ne], hb _ (by simpa using ⟨⟨c1, n1⟩, c2, n2⟩)⟩

/-- What is required of the instances to be read back. -/
structure InstsOk (R : ρ → Bytes) (l : Map ρ (Inst ρ)) : Prop where
  props : ∀ x ∈ l, PropsOk R x.2.properties
  refs : ∀ x ∈ l, isEmptyReference (R x.1) = false ∧ 13#8 ∉ R x.1

theorem InstsOk.sub {R : ρ → Bytes} {l l' : Map ρ (Inst ρ)} (h : InstsOk R l) (hs : ∀ x ∈ l', x ∈ l) : InstsOk R l' :=
  ⟨fun x hx => h.props x (hs x hx), fun x hx => h.refs x (hs x hx)⟩

/-- The heap has been allocated in order. -/
def Allocated (h : Heap Nat) : Prop := h.map Prod.fst = List.range h.length

theorem Allocated.notMem {h : Heap Nat} (ha : Allocated h) : h.length ∉ h.map Prod.fst := by
  rw [ha]; simp

theorem getItems_items {P : Params} (hF : ReadableText P.F) (d : Bool) {R : ρ → Bytes} {h : Heap ρ} {pos : ρ → Nat}
    {ps : List ρ} {l : Map ρ (Inst ρ)} (f : Forest h ps l) :
    ∀ {items : List Tag}, Items P R h ps items → InstsOk R l →
    ∀ (st : DecState), Allocated st.heap → (∀ k x, l[k]? = some x → pos x.1 = st.heap.length + k) →
    ∀ (rest : List Tag) (parent : Option Nat) (hasProps : Bool) (props props' : Map Bytes (Value Nat))
      (ids : List Nat) (st' : DecState),
      getItems P.F d rest parent hasProps props (decState P d R pos l st) = .ok (ids, props', st') →
      getItems P.F d (reread items ++ rest) parent hasProps props st = .ok (ps.map pos ++ ids, props', st') := by
  induction f with
  | nil =>
    intro items hI _ st _ _ rest parent hasProps props props' ids st' hr
    cases hI
    rw [decState_nil] at hr
    simpa [reread] using hr
  | @cons p ps inst below more hp f1 f2 ih1 ih2 =>
    intro items hI hok st hal hnum rest parent hasProps props props' ids st' hr
    cases hI with
    | @cons _ _ inst' kids items hp' hk hi =>
    rw [hp] at hp'; cases hp'
    have hpos : pos p = st.heap.length := by
      have := hnum 0 (p, inst) (by simp)
      simpa using this
    obtain ⟨a1, a2, -⟩ := item_attr P inst.className (R p) (propTags P R inst.properties) kids
    obtain ⟨hr1, hr2⟩ := hok.refs (p, inst) (by simp)
    simp only at hr1 hr2
    have hne : R p ≠ [] := by
      intro e; rw [e] at hr1; simp [isEmptyReference] at hr1
    -- the instance itself
    have hent : enterItem (normNewlines inst.className)
        (if P.excludeReferent then none else some (normNewlines (R p))) st =
        { st with
          heap := st.heap ++ [(st.heap.length, ⟨normNewlines inst.className,
            if P.excludeReferent then [] else R p, false, [], []⟩)]
          lookup := lookupOf P.excludeReferent R pos [(p, inst)] st.lookup } := by
      have hset : ∀ v : Inst Nat, Map.set st.heap st.heap.length v = st.heap ++ [(st.heap.length, v)] :=
        fun v => Map.set_new hal.notMem v
      simp only [enterItem, hset, normNewlines_of_no_cr hr2]
      cases hx : P.excludeReferent with
      | true => simp [lookupOf]
      | false => simp [lookupOf, hne, hr1, hpos]
    have hitem : getItem P.F d (rereadOf (itemTag P inst.className (R p) (propTags P R inst.properties) kids))
        parent hasProps props st = .ok ([pos p], hasProps, props, decState P d R pos ((p, inst) :: below) st) := by
      have hn1 : (rereadOf (itemTag P inst.className (R p) (propTags P R inst.properties) kids)).head.startName =
        str "Item" := by rw [start_reread]; rfl
      have ht1 : (rereadOf (itemTag P inst.className (R p) (propTags P R inst.properties) kids)).tags =
        rereadOf (node (str "Properties") (propTags P R inst.properties)) :: reread kids := by
        rw [tags_reread]; rfl
      generalize rereadOf (itemTag P inst.className (R p) (propTags P R inst.properties) kids) = tag at *
      obtain ⟨th, tt⟩ := tag
      simp only [Tag.head_mk, Tag.tags_mk] at hn1 ht1 a1 a2
      unfold getItem
      rw [if_pos hn1]
      simp only [a1, a2, hent, ht1]
      -- the properties
      have hprops : getItem P.F d (rereadOf (node (str "Properties") (propTags P R inst.properties)))
          (some st.heap.length) false [] { st with
          heap := st.heap ++ [(st.heap.length, ⟨normNewlines inst.className,
            if P.excludeReferent then [] else R p, false, [], []⟩)]
          lookup := lookupOf P.excludeReferent R pos [(p, inst)] st.lookup } =
          .ok ([], true, nowProps P.F d inst.properties (names inst.properties), { st with
          heap := st.heap ++ [(st.heap.length, ⟨normNewlines inst.className,
            if P.excludeReferent then [] else R p, false, [], []⟩)]
          lookup := lookupOf P.excludeReferent R pos [(p, inst)] st.lookup
          propRefs := st.propRefs ++ laterRefs R (pos p) inst.properties (names inst.properties)
          stringRefs := st.stringRefs ++ laterShared P.hash (pos p) inst.properties (names inst.properties) }) := by
        have e1 : rereadOf (node (str "Properties") (propTags P R inst.properties)) =
          ⟨headBack { startName := str "Properties" }, reread (propTags P R inst.properties)⟩ := rfl
        rw [e1]
        unfold getItem
        rw [if_neg (show ¬ (headBack { startName := str "Properties" }).startName = str "Item" by decide),
          if_pos (show (headBack { startName := str "Properties" }).startName = str "Properties" by decide)]
        simp only [Bool.false_eq_true, if_false]
        have hpr := hok.props (p, inst) (by simp)
        have := getProps_tags hF d hpr st.heap.length (names inst.properties) [] { st with
          heap := st.heap ++ [(st.heap.length, ⟨normNewlines inst.className,
            if P.excludeReferent then [] else R p, false, [], []⟩)]
          lookup := lookupOf P.excludeReferent R pos [(p, inst)] st.lookup } (nodup_names hpr.ok) (by simp)
        rw [show propTags P R inst.properties = (names inst.properties).filterMap (propTag P R inst.properties) from rfl,
          this]
        simp only [hpos, List.nil_append]
      rw [getItems, hprops]
      simp only
      -- the children
      have hkids := ih1 hk (hok.sub fun x hx => by simp [hx]) { st with
          heap := st.heap ++ [(st.heap.length, ⟨normNewlines inst.className,
            if P.excludeReferent then [] else R p, false, [], []⟩)]
          lookup := lookupOf P.excludeReferent R pos [(p, inst)] st.lookup
          propRefs := st.propRefs ++ laterRefs R (pos p) inst.properties (names inst.properties)
          stringRefs := st.stringRefs ++ laterShared P.hash (pos p) inst.properties (names inst.properties) }
        (by
          unfold Allocated at hal ⊢
          simp [hal, List.range_succ])
        (by
          intro k x hx
          have := hnum (k + 1) x (by
            rw [List.getElem?_cons_succ, List.getElem?_append_left]
            · exact hx
            · exact (List.getElem?_eq_some_iff.1 hx).1)
          simp only [List.length_append, List.length_singleton]
          omega)
        [] (some st.heap.length) true (nowProps P.F d inst.properties (names inst.properties)) _ [] _ (by
          rw [getItems])
      rw [List.append_nil] at hkids
      rw [hkids]
      simp only [List.append_nil]
      refine congrArg (fun x => Res.ok ([pos p], hasProps, props, x)) ?_ |> fun h => (by simpa [hpos] using h)
      simp only [decState]
      rw [List.append_assoc, List.singleton_append, set_middle _ _ _ _ _ hal.notMem]
      have hl1 : lookupOf P.excludeReferent R pos below (lookupOf P.excludeReferent R pos [(p, inst)] st.lookup) =
          lookupOf P.excludeReferent R pos ((p, inst) :: below) st.lookup := by
        unfold lookupOf
        cases P.excludeReferent <;> simp
      rw [hl1]
      have hcls : (if P.excludeReferent = true then none else some (normNewlines (R p))).getD [] =
          (if P.excludeReferent then [] else R p) := by
        rw [normNewlines_of_no_cr hr2]
        cases P.excludeReferent <;> rfl
      rw [hcls]
      simp [decInst, hpos]
    have hrest := ih2 hi (hok.sub fun x hx => by simp [hx]) (decState P d R pos ((p, inst) :: below) st)
      (by
        unfold Allocated at hal ⊢
        simp only [decState, List.map_append, hal, List.length_append, List.length_map]
        rw [List.range_add]
        congr 1
        apply List.ext_getElem?
        intro k
        simp only [List.getElem?_map]
        by_cases hk' : k < ((p, inst) :: below).length
        · rw [List.getElem?_eq_getElem hk']
          have := hnum k (((p, inst) :: below)[k]) (by
            rw [← List.cons_append, List.getElem?_append_left hk', List.getElem?_eq_getElem hk'])
          simp only [Option.map_some]
          rw [List.getElem?_range hk']
          simp [this]
        · rw [List.getElem?_eq_none (by omega)]
          rw [List.getElem?_eq_none (by simp only [List.length_range]; omega)]
          rfl)
      (by
        intro k x hx
        have := hnum (((p, inst) :: below).length + k) x (by
          rw [← List.cons_append, List.getElem?_append_right (by omega)]
          simpa using hx)
        rw [this]
        simp only [decState, List.length_append, List.length_map]
        omega)
      rest parent hasProps props props' ids st' (by
        rw [← decState_append]
        exact hr)
    rw [reread, List.cons_append, getItems, hitem]
    simp only
    rw [hrest]
    simp

end Rbxlx

import Verif.Spec.XmlWarnings
import Verif.Props.DecodeXml
import Verif.Props.XmlProperty
import Verif.Props.XmlTreeExamples
/-!
# C81: what the XML decoder and encoder report in warnings

`decodeW` is `Decoder.Decode` of the XML package with the warnings of the codec, `encodeWarns` are the warnings of
`Encoder.Encode`. The warnings of the parser are the subject of C78.
-/
namespace Props
open Go Rbxfile Rbxlx Spec

/-- A result with more in it. -/
def addWarns {α β : Type} (f : α → β) : Res α → Res β
  | .ok a => .ok (f a)
  | .err e => .err e
  | .panic => .panic

mutual
/-- The warnings of `getItemsW`. -/
def itemsWarns (F : FloatText) (discard : Bool) : Bool → Bool → List Tag → List CodecWarn
  | _, _, [] => []
  | inItem, hasProps, t :: ts => itemWarns F discard inItem hasProps t ++
      itemsWarns F discard inItem (hasProps || (inItem && decide (t.head.startName = str "Properties"))) ts
/-- The warnings of `getItemW`. -/
def itemWarns (F : FloatText) (discard : Bool) : Bool → Bool → Tag → List CodecWarn
  | inItem, hasProps, ⟨h, ts⟩ =>
    if h.startName = str "Item" then
      match attrValue h.attr (str "class") with
      | none => [.noClass]
      | some _ => itemsWarns F discard true false ts
    else if h.startName = str "Properties" ∧ inItem = true ∧ hasProps = false then ts.flatMap (propWarns F discard)
    else []
end

theorem getPropsW_eq (F : FloatText) (discard : Bool) (p : Nat) : ∀ (ts : List Tag) (props : Map Bytes (Value Nat))
    (st : DecState) (ws : List CodecWarn), getPropsW F discard p ts props st ws =
      addWarns (fun x => (x.1, x.2, ws ++ ts.flatMap (propWarns F discard))) (getProps F discard p ts props st)
  | [], props, st, ws => by simp [getPropsW, getProps, addWarns]
  | t :: ts, props, st, ws => by
    unfold getPropsW getProps
    cases getProperty (ρ := Nat) F discard t with
    | ok r => simp only [getPropsW_eq F discard p ts, List.flatMap_cons, List.append_assoc]
    | err e => rfl
    | panic => rfl

theorem item_not_props : str "Item" ≠ str "Properties" := by decide

mutual
theorem getItemsW_eq (F : FloatText) (discard : Bool) : ∀ (ts : List Tag) (parent : Option Nat) (hp : Bool)
    (props : Map Bytes (Value Nat)) (st : DecState) (ws : List CodecWarn), getItemsW F discard ts parent hp props st ws =
      addWarns (fun x => (x.1, x.2.1, x.2.2, ws ++ itemsWarns F discard parent.isSome hp ts))
        (getItems F discard ts parent hp props st)
  | [], parent, hp, props, st, ws => by simp [getItemsW, getItems, addWarns, itemsWarns]
  | t :: ts, parent, hp, props, st, ws => by
    rw [getItemsW, getItems, getItemW_eq F discard t]
    rcases hg : getItem F discard t parent hp props st with ⟨ids, hp', props', st'⟩ | e | _
    · have hh := getItem_hasProps F discard t parent hp props st hg
      simp only [addWarns, getItemsW_eq F discard ts]
      subst hh
      cases getItems F discard ts parent (hp || (parent.isSome && decide (t.head.startName = str "Properties"))) props' st' with
      | ok x => simp only [addWarns, itemsWarns, List.append_assoc]
      | err e => rfl
      | panic => rfl
    · rfl
    · rfl
theorem getItem_hasProps (F : FloatText) (discard : Bool) : ∀ (t : Tag) (parent : Option Nat) (hp : Bool)
    (props : Map Bytes (Value Nat)) (st : DecState) {ids : List Nat} {hp' : Bool} {props' : Map Bytes (Value Nat)} {st' : DecState},
    getItem F discard t parent hp props st = .ok (ids, hp', props', st') →
      hp' = (hp || (parent.isSome && decide (t.head.startName = str "Properties")))
  | ⟨h, ts⟩, parent, hp, props, st => by
    intro hg
    rw [getItem.eq_def] at hg
    simp only at hg
    show _ = (hp || (parent.isSome && decide (h.startName = str "Properties")))
    split at hg
    next hi =>
      have : ¬ h.startName = str "Properties" := by rw [hi]; exact item_not_props
      split at hg
      · cases hg; simp [this]
      · split at hg
        · cases hg
        · cases hg
        · cases hg; simp [this]
    · split at hg
      next hpr =>
        split at hg
        · cases hg; simp
        · split at hg
          · cases hg; simp_all
          · split at hg
            · cases hg
            · cases hg
            · cases hg; simp [hpr]
      next hpr => cases hg; simp [hpr]
theorem getItemW_eq (F : FloatText) (discard : Bool) : ∀ (t : Tag) (parent : Option Nat) (hp : Bool)
    (props : Map Bytes (Value Nat)) (st : DecState) (ws : List CodecWarn), getItemW F discard t parent hp props st ws =
      addWarns (fun x => (x.1, x.2.1, x.2.2.1, x.2.2.2, ws ++ itemWarns F discard parent.isSome hp t))
        (getItem F discard t parent hp props st)
  | ⟨h, ts⟩, parent, hp, props, st, ws => by
    rw [getItemW.eq_def, getItem.eq_def, itemWarns.eq_def]
    simp only
    by_cases hi : h.startName = str "Item"
    · simp only [hi, if_true]
      cases attrValue h.attr (str "class") with
      | none => rfl
      | some cls =>
        simp only [getItemsW_eq F discard ts, Option.isSome_some]
        cases getItems F discard ts (some st.heap.length) false [] (enterItem cls (attrValue h.attr (str "referent")) st) <;> rfl
    · simp only [hi, if_false]
      by_cases hpr : h.startName = str "Properties"
      · simp only [hpr, if_true, true_and]
        cases parent with
        | none => simp [addWarns]
        | some p =>
          cases hp with
          | true => simp [addWarns]
          | false =>
            simp only [Bool.false_eq_true, if_false, getPropsW_eq, Option.isSome_some, and_self, if_true]
            cases getProps F discard p ts props st <;> rfl
      · simp [hpr, addWarns]
end

/-- The warnings change nothing else. -/
theorem decodeW_eq (F : FloatText) (discard : Bool) (s : Bytes) : decodeW F discard s =
    match readFrom s with
    | .ok (some doc, _) => addWarns (fun x => (x.1, x.2, itemsWarns F discard false false doc.tags)) (decode F discard s)
    | _ => addWarns (fun x => (x.1, x.2, [])) (decode F discard s) := by
  unfold decodeW decode codecDecodeW codecDecode
  rcases readFrom s with ⟨_ | doc, rest⟩ | e | _
  · rfl
  · simp only [getItemsW_eq]
    cases getItems F discard doc.tags none false [] {} <;> rfl
  · rfl
  · rfl

/-! ## Items -/

theorem builds_count {h : Heap Nat} {K : Nat → Tag → Inst Nat → Prop} {ts : List Tag} {ps : List Nat} {l : Map Nat (Inst Nat)}
    (hb : Builds h K ts ps l) : l.length = (metItems ts).countP hasClass := by
  induction hb with
  | nil => rfl
  | @skip t ts ps l hn _ ih =>
    obtain ⟨hd, sub⟩ := t
    rw [metItems, List.countP_append, ih, metOf]
    simp only [Tag.head] at hn
    by_cases hi : hd.startName = str "Item"
    · simp [hi, hn hi, hasClass, Tag.head]
    · simp [hi]
  | @item t ts ps below rest p inst hi hc _ _ _ _ _ _ ih1 ih2 =>
    obtain ⟨hd, sub⟩ := t
    rw [metItems, List.countP_append, ← ih2, metOf]
    simp only [Tag.head, Tag.tags] at hi hc ih1
    simp only [hi, if_true, hc, Option.isSome_some, List.countP_cons, ← ih1, List.length_cons, List.length_append, hasClass, Tag.head]
    omega

theorem contentWarns_noClass (t : Tag) : CodecWarn.noClass ∉ contentWarns t := by
  unfold contentWarns
  cases hasText t with
  | true => simp
  | false =>
    cases t.tags with
    | nil => simp
    | cons s ss =>
      simp only [Bool.false_eq_true, if_false]
      split <;> simp
theorem propWarns_noClass (F : FloatText) (discard : Bool) (t : Tag) : CodecWarn.noClass ∉ propWarns F discard t := by
  have hv : ∀ t ty, CodecWarn.noClass ∉ valueWarns F discard t ty := by
    intro t ty
    unfold valueWarns
    split
    · exact contentWarns_noClass t
    · unfold fontWarns
      simp only
      split
      · simp
      · split
        · simp
        · rw [List.mem_append, not_or]
          refine ⟨contentWarns_noClass _, ?_⟩
          split
          · simp
          · split
            · exact contentWarns_noClass _
            · simp
    · simp
  unfold propWarns
  split
  · simp
  · simp only
    split
    · split
      · exact hv _ _
      · simp
    · exact hv _ _

mutual
theorem itemsWarns_noClass (F : FloatText) (discard : Bool) : ∀ (inItem hp : Bool) (ts : List Tag),
    (itemsWarns F discard inItem hp ts).count .noClass = (metItems ts).countP (fun t => !hasClass t)
  | inItem, hp, [] => by rw [itemsWarns, metItems]; rfl
  | inItem, hp, t :: ts => by
    rw [itemsWarns, metItems, List.count_append, List.countP_append, itemsWarns_noClass F discard _ _ ts,
      itemWarns_noClass F discard _ _ t]
theorem itemWarns_noClass (F : FloatText) (discard : Bool) : ∀ (inItem hp : Bool) (t : Tag),
    (itemWarns F discard inItem hp t).count .noClass = (metOf t).countP (fun t => !hasClass t)
  | inItem, hp, ⟨h, ts⟩ => by
    rw [itemWarns.eq_def, metOf]
    simp only
    by_cases hi : h.startName = str "Item"
    · have hh : hasClass ⟨h, ts⟩ = (attrValue h.attr (str "class")).isSome := rfl
      simp only [hi, if_true, List.countP_cons, hh]
      cases hc : attrValue h.attr (str "class") with
      | none => simp
      | some c => simp [itemsWarns_noClass F discard _ _ ts]
    · simp only [hi, if_false, List.countP_nil]
      split
      · rw [List.count_eq_zero]
        intro hm
        obtain ⟨t, -, ht⟩ := List.mem_flatMap.1 hm
        exact propWarns_noClass F discard t ht
      · rfl
end

mutual
theorem metItems_all : ∀ (ts : List Tag), (∀ t ∈ metItems ts, hasClass t = true) → metItems ts = allItems ts
  | [], _ => by rw [metItems, allItems]
  | t :: ts, h => by
    rw [metItems] at h
    rw [metItems, allItems, metItems_all ts (fun t ht => h t (List.mem_append_right _ ht)),
      metOf_all t (fun t ht => h t (List.mem_append_left _ ht))]
theorem metOf_all : ∀ (t : Tag), (∀ s ∈ metOf t, hasClass s = true) → metOf t = itemsOf t
  | ⟨h, ts⟩, hm => by
    rw [metOf] at hm
    rw [metOf, itemsOf]
    by_cases hi : h.startName = str "Item"
    · simp only [hi, if_true] at hm ⊢
      have hc : (attrValue h.attr (str "class")).isSome = true := hm _ (.head _)
      simp only [hc, if_true] at hm ⊢
      rw [metItems_all ts (fun t ht => hm t (.tail _ ht))]
    · simp [hi]
end

variable {F : FloatText} {discard : Bool} {s rest : Bytes} {doc : Tag} {h : Heap Nat} {root : Root Nat} {ws : List CodecWarn}

theorem decodeW_ok (hr : readFrom s = .ok (some doc, rest)) (hd : decodeW F discard s = .ok (h, root, ws)) :
    decode F discard s = .ok (h, root) ∧ ws = itemsWarns F discard false false doc.tags := by
  rw [decodeW_eq] at hd
  simp only [hr] at hd
  rcases hx : decode F discard s with x | e | _ <;> rw [hx] at hd <;> cases hd
  exact ⟨rfl, rfl⟩

/-- C81: the decoder reports every Item tag that it drops: there is one warning per Item tag without a class that it
meets (not within another such tag), and there is an instance for every other one. -/
theorem C81_items_partial (hr : readFrom s = .ok (some doc, rest)) (hd : decodeW F discard s = .ok (h, root, ws)) :
    ws.count .noClass = (metItems doc.tags).countP (fun t => !hasClass t) ∧
      ∃ l, Trees h root.instances l ∧ l.length = (metItems doc.tags).countP hasClass := by
  obtain ⟨h1, rfl⟩ := decodeW_ok hr hd
  refine ⟨itemsWarns_noClass F discard false false doc.tags, ?_⟩
  obtain ⟨l, hb, ht, -⟩ := C70_instances hr h1
  exact ⟨l, ht, builds_count hb⟩

/-- C81: without a warning about Items there is an instance for every Item tag of the document. -/
theorem C81_no_item_lost (hr : readFrom s = .ok (some doc, rest)) (hd : decodeW F discard s = .ok (h, root, ws))
    (hw : .noClass ∉ ws) : ∃ l, Trees h root.instances l ∧ l.length = (allItems doc.tags).length := by
  obtain ⟨h1, l, ht, hl⟩ := C81_items_partial hr hd
  rw [List.count_eq_zero.2 hw] at h1
  have hall : ∀ t ∈ metItems doc.tags, hasClass t = true := by
    intro t htm
    have := List.countP_eq_zero.1 h1.symm t htm
    simpa using this
  refine ⟨l, ht, ?_⟩
  rw [hl, ← metItems_all _ hall]
  exact List.countP_eq_length.2 hall


/-! ## Binary data -/

theorem propertyTags_nil : propertyTags [] = [] := rfl

theorem propertyTags_cons (t : Tag) (ts : List Tag) : propertyTags (t :: ts) =
    if t.head.startName = str "Properties" then t.tags else propertyTags ts := by
  unfold propertyTags
  rw [List.find?_cons]
  by_cases h : t.head.startName = str "Properties" <;> simp [h]

/-- The properties read for an Item. -/
def readProps (t : Tag) : List Tag := if hasClass t then propertyTags t.tags else []

mutual
theorem itemsWarns_binary (F : FloatText) (discard : Bool) : ∀ (inItem hp : Bool) (ts : List Tag),
    (itemsWarns F discard inItem hp ts).count .binaryData =
      (((if inItem && !hp then propertyTags ts else []) ++ (metItems ts).flatMap readProps).flatMap (propWarns F discard)).length
  | inItem, hp, [] => by rw [itemsWarns, metItems]; simp [propertyTags_nil]
  | inItem, hp, t :: ts => by
    rw [itemsWarns, metItems, List.count_append, itemsWarns_binary F discard _ _ ts, itemWarns_binary F discard _ _ t,
      propertyTags_cons]
    simp only [List.flatMap_append, List.length_append]
    by_cases hpr : t.head.startName = str "Properties"
    · cases inItem <;> cases hp <;> simp [hpr] <;> omega
    · cases inItem <;> cases hp <;> simp [hpr] <;> omega
theorem itemWarns_binary (F : FloatText) (discard : Bool) : ∀ (inItem hp : Bool) (t : Tag),
    (itemWarns F discard inItem hp t).count .binaryData =
      (((if t.head.startName = str "Properties" then (if inItem && !hp then t.tags else []) else []) ++
        (metOf t).flatMap readProps).flatMap (propWarns F discard)).length
  | inItem, hp, ⟨h, ts⟩ => by
    rw [itemWarns.eq_def, metOf]
    simp only
    show _ = (((if h.startName = str "Properties" then (if inItem && !hp then ts else []) else []) ++ _ ).flatMap _).length
    by_cases hi : h.startName = str "Item"
    · have hn : ¬ h.startName = str "Properties" := by rw [hi]; exact item_not_props
      have hr : readProps ⟨h, ts⟩ = if (attrValue h.attr (str "class")).isSome then propertyTags ts else [] := rfl
      simp only [hi, if_true, List.flatMap_cons, hr, item_not_props, if_false, List.nil_append]
      cases hc : attrValue h.attr (str "class") with
      | none => rfl
      | some c =>
        simp only [itemsWarns_binary F discard _ _ ts]
        rfl
    · simp only [hi, if_false, List.flatMap_nil, List.append_nil]
      by_cases hpr : h.startName = str "Properties"
      · simp only [hpr, if_true, true_and]
        cases inItem <;> cases hp <;> simp only [Bool.and_true, Bool.and_false, Bool.not_true, Bool.not_false, Bool.false_eq_true,
          if_true, if_false, and_self, false_and, and_false, List.count_nil, List.flatMap_nil, List.length_nil, reduceCtorEq]
        rw [List.count_eq_length]
        intro w hw
        obtain ⟨t, -, ht⟩ := List.mem_flatMap.1 hw
        cases w with
        | noClass => exact absurd ht (propWarns_noClass F discard t)
        | binaryData => rfl
      · simp [hpr]
end

/-- C81: for every tag of a property that is read and has binary data, there is a warning; there are no others of this
kind. -/
theorem C81_binary_partial (hr : readFrom s = .ok (some doc, rest)) (hd : decodeW F discard s = .ok (h, root, ws)) :
    ws.count .binaryData = (((metItems doc.tags).flatMap readProps).flatMap (propWarns F discard)).length := by
  obtain ⟨h1, rfl⟩ := decodeW_ok hr hd
  rw [itemsWarns_binary F discard false false doc.tags]
  simp

theorem hasText_eq (t : Tag) : hasText t = decide (tagContent t ≠ []) := by
  unfold hasText tagContent
  cases t.head.cdata <;> rfl

theorem contentWarns_eq (t : Tag) : contentWarns t = if binaryContent t then [.binaryData] else [] := by
  unfold contentWarns binaryContent
  rw [hasText_eq]
  cases ht : t.tags with
  | nil => simp
  | cons u us =>
    by_cases h1 : tagContent t = [] <;> by_cases h2 : u.head.startName = str "binary" <;> simp [h1, h2]

/-- C81: the tags with binary data: those of a property of type Content without content of their own and with binary
data in the first tag … -/
theorem C81_content (t : Tag) {name : Bytes} (hn : attrValue t.head.attr (str "name") = some name) (hc : TypeTag t.head.startName .content) :
    propWarns F discard t = if binaryContent t then [.binaryData] else [] := by
  unfold propWarns
  rw [hn]
  simp only [((C80_type _ .content nofun).1.1 hc), Bool.false_eq_true, if_false]
  exact contentWarns_eq t

theorem firstTag_append_some {a b : List Tag} {n : String} {u : Tag} (h : firstTag a n = some u) : firstTag (a ++ b) n = some u := by
  unfold firstTag at *
  rw [List.find?_append, h]
  rfl

theorem contentValue_says {discard : Bool} {u : Tag} {c : Bytes} (h : SaysContent u c) : contentValue discard u = some c := by
  have := (content_iff u c).2 h
  cases discard with
  | true => exact this
  | false =>
    unfold contentValue at *
    grind

/-- … and the tags of a Font whose family or cached face is such … -/
theorem C81_font (t : Tag) {name fam cached : Bytes} {w : BitVec 16} {st : Byte} (hn : attrValue t.head.attr (str "name") = some name)
    (hc : TypeTag t.head.startName .font) (hs : SaysValue (ρ := Nat) F t (.font fam w st cached)) :
    (propWarns F discard t).length = binaryParts t := by
  unfold propWarns
  rw [hn]
  simp only [((C80_type _ .font nofun).1.1 hc), Bool.false_eq_true, if_false, valueWarns]
  obtain ⟨seen, cut, h1, ⟨u, h2, h3⟩, h4, h5, h6⟩ := hs
  have hfam : firstTag t.tags "Family" = some u := by
    have := h1.2
    cases cut with
    | false => simp only at this; rw [← this]; exact h2
    | true =>
      obtain ⟨before, last, after, e1, e2, -⟩ := this
      rw [e1, show before ++ last :: after = (before ++ [last]) ++ after by simp, ← e2]
      exact firstTag_append_some h2
  obtain ⟨vs, g1, g2⟩ := (fontComps_iff F t (some u) w st).1 ⟨seen, cut, h1, h2.symm, fun _ => by nofun, h4, h5⟩
  have fc : [(str "Family", Comp.tag), (str "Weight", .weight), (str "Style", .style)] = fontComps := rfl
  simp only [Prod.mk.injEq] at g2
  unfold fontWarns
  simp only [fc, g1, ← g2.1, Bool.not_true, Bool.false_eq_true, if_false, contentValue_says h3, contentWarns_eq]
  have k1 : Map.get? [(str "CachedFaceId", Comp.tag)] (str "CachedFaceId") = some .tag := by decide +kernel
  obtain ⟨ok', vs', e1, e2, e3⟩ := getFrom_plain F (c := [(str "CachedFaceId", Comp.tag)]) (by simp) (by simp) t
  simp only [AllThere, List.forall_mem_cons, List.not_mem_nil, false_implies, implies_true, and_true] at e3
  rw [← firstTag_eq] at e3
  simp only [e1, tag_of_got k1 e2]
  unfold binaryParts
  rw [hfam]
  rcases hcf : firstTag t.tags "CachedFaceId" with _ | c
  · cases ok' <;> cases hb : binaryContent u <;> simp [hb]
  · have : ok' = true := e3.2 (by rw [hcf]; nofun)
    subst this
    cases hb : binaryContent u <;> cases hb' : binaryContent c <;> simp [hb, hb', contentWarns_eq]

/-- … and no tag of another type. -/
theorem C81_others (t : Tag) (hc : ¬ TypeTag t.head.startName .content) (hf : ¬ TypeTag t.head.startName .font) :
    propWarns F discard t = [] := by
  unfold propWarns
  cases attrValue t.head.attr (str "name") with
  | none => rfl
  | some n =>
    simp only
    rw [(C80_type _ .content nofun).1] at hc
    rw [(C80_type _ .font nofun).1] at hf
    rcases hg : getCanonType t.head.startName with ⟨ty, _ | _⟩
    · rw [hg] at hc hf
      simp only [Bool.false_eq_true, if_false]
      cases ty <;> first | rfl | exact absurd rfl hc | exact absurd rfl hf
    · simp only [if_true]
      cases ho : getOptional F t ty with
      | none => rfl
      | some o =>
        cases o with
        | none => rfl
        | some u =>
          have : ty = .cframe := by
            unfold getOptional at ho
            split at ho
            · cases ho
            · split at ho
              · assumption
              · cases ho
          subst this
          rfl


/-! ## Cases, and what is not reported -/

/-- A document with an Item without a class (within which there is another Item), and binary data. -/
def warnDoc : Bytes := str (
  "<roblox version=\"4\"><Item class=\"A\"><Item referent=\"R\"><Item class=\"B\"></Item></Item><Properties>" ++
  "<Content name=\"C\"><binary>AA==</binary></Content></Properties><Item class=\"D\"></Item></Item></roblox>")

/-- The numbers of instances, and the warnings. -/
def warnsOf (s : Bytes) : Option (Nat × List CodecWarn) :=
  match decodeW goFloat false s with
  | .ok (h, _, ws) => some (h.length, ws)
  | _ => none

example : warnsOf warnDoc = some (2, [.noClass, .binaryData]) := by decide +kernel

/-- A document with a property without a name, one that is not valid, one of an unknown type, and a second list of
properties. -/
def silentDoc : Bytes := str (
  "<roblox version=\"4\"><Item class=\"A\"><Properties><int>1</int><Content name=\"C\">x</Content>" ++
  "<what name=\"W\">1</what></Properties><Properties><int name=\"T\">4</int></Properties></Item></roblox>")

/-- C81 is false of properties: they are dropped without a warning. -/
theorem C81_properties_fails : decodeW goFloat false silentDoc = .ok ([(0, ⟨str "A", [], false, [], []⟩)], ⟨[0], []⟩, []) := by
  decide +kernel

/-! ## Encoding -/

mutual
/-- All names of the tags and attributes can be written. -/
def GoodNames : List Tag → Prop
  | [] => True
  | t :: ts => GoodName t ∧ GoodNames ts
/-- All names of the tag and its attributes, and in it, can be written. -/
def GoodName : Tag → Prop
  | ⟨h, ts⟩ => checkName .tag h.startName = true ∧ h.endName = [] ∧ (∀ a ∈ h.attr, checkName .attr a.1 = true) ∧ GoodNames ts
end

mutual
theorem tagsWarns_good : ∀ (ts : List Tag), GoodNames ts → tagsWarns ts = []
  | [], _ => by rw [tagsWarns]
  | t :: ts, h => by
    rw [GoodNames] at h
    rw [tagsWarns, tagsWarns_good ts h.2, tagWarns_good t h.1]
    rfl
theorem tagWarns_good : ∀ (t : Tag), GoodName t → tagWarns t = []
  | ⟨h, ts⟩, hg => by
    rw [GoodName] at hg
    rw [tagWarns, tagsWarns_good ts hg.2.2.2]
    exact headWarns_good h false hg.1 hg.2.1 hg.2.2.1
theorem headWarns_good (h : Head) (b : Bool) (h1 : checkName .tag h.startName = true) (h2 : h.endName = [])
    (h3 : ∀ a ∈ h.attr, checkName .attr a.1 = true) : headWarns b h [] = [] := by
  unfold headWarns
  have : h.attr.filter (fun a => !checkName .attr a.1) = [] := by
    rw [List.filter_eq_nil_iff]
    intro a ha
    simp [h3 a ha]
  simp [h1, h2, this]
end

theorem goodNames_append : ∀ (a b : List Tag), GoodNames (a ++ b) ↔ GoodNames a ∧ GoodNames b
  | [], b => by simp [GoodNames]
  | t :: a, b => by rw [List.cons_append, GoodNames, GoodNames, goodNames_append a b, and_assoc]

theorem goodNames_forall : ∀ (ts : List Tag), GoodNames ts ↔ ∀ t ∈ ts, GoodName t
  | [] => by simp [GoodNames]
  | t :: ts => by rw [GoodNames, goodNames_forall ts]; simp

variable {ρ : Type}

theorem good_leaf {n x : Bytes} (h : checkName .tag n = true) : GoodName (leaf n x) := by
  unfold leaf
  rw [GoodName, GoodNames]
  exact ⟨h, rfl, nofun, trivial⟩

theorem good_node {n : Bytes} {ts : List Tag} (h : checkName .tag n = true) (ht : GoodNames ts) : GoodName (node n ts) := by
  unfold node
  rw [GoodName]
  exact ⟨h, rfl, nofun, ht⟩

theorem good_mk {hd : Head} (h : checkName .tag hd.startName = true) (he : hd.endName = []) (ha : hd.attr = []) : GoodName ⟨hd, []⟩ := by
  rw [GoodName, GoodNames, ha]
  exact ⟨h, he, nofun, trivial⟩

theorem encodeContent_head (h : Head) (text : Bytes) : (encodeContent h text).startName = h.startName ∧
    (encodeContent h text).endName = h.endName ∧ (encodeContent h text).attr = h.attr := by
  unfold encodeContent
  split <;> exact ⟨rfl, rfl, rfl⟩

theorem good_encodeContent {h : Head} {x : Bytes} (hn : checkName .tag h.startName = true) (he : h.endName = []) (ha : h.attr = []) :
    GoodName ⟨encodeContent h x, []⟩ :=
  good_mk (by rw [(encodeContent_head h x).1]; exact hn) (by rw [(encodeContent_head h x).2.1]; exact he)
    (by rw [(encodeContent_head h x).2.2]; exact ha)

theorem good_optional (ty : Ty) : checkName .tag (getCanonTag ty true) = true := by cases ty <;> decide +kernel

theorem good_nil : GoodNames [] := by rw [GoodNames]; trivial

theorem good_cons {t : Tag} {ts : List Tag} (h : GoodName t) (hs : GoodNames ts) : GoodNames (t :: ts) := by
  rw [GoodNames]; exact ⟨h, hs⟩

/-- Names that are literals are good. -/
local macro "good_names" : tactic => `(tactic| repeat' first
  | exact good_nil | refine good_cons ?_ ?_ | (refine good_leaf ?_; decide +kernel)
  | (refine good_mk ?_ rfl rfl; show checkName .tag (str _) = true; decide +kernel))

theorem good_cframe (F : FloatText) (p : Vector3) (r : Matrix) : GoodNames (cframeTags F p r) := by
  unfold cframeTags
  good_names

theorem good_xyz (F : FloatText) (v : Vector3) : GoodNames (xyzTags F v) := by
  unfold xyzTags
  good_names

theorem good_xy (F : FloatText) (v : Vector2) : GoodNames (xyTags F v) := by
  unfold xyTags
  good_names

theorem good_content {n s : Bytes} (hn : checkName .tag n = true) : GoodName (contentTag n s) := by
  unfold contentTag
  rw [GoodName, GoodNames, GoodNames]
  refine ⟨hn, rfl, nofun, ?_, trivial⟩
  split <;> (refine good_leaf ?_; decide +kernel)

theorem good_value (F : FloatText) (hash : Bytes → Bytes) (ref : Bytes) (v : Value ρ) (t : Tag) (h : encodeValue F hash ref v = some t) :
    GoodName t := by
  cases v
  case optional ty o =>
    simp only [encodeValue] at h
    split at h
    · cases h; exact good_mk (good_optional _) rfl rfl
    · cases h
      refine good_node (good_optional _) ?_
      rw [GoodNames, GoodNames]
      exact ⟨good_node (by decide +kernel) (good_cframe ..), trivial⟩
    · cases h
      exact good_node (good_optional _) (by rw [GoodNames]; trivial)
  case font fam w st c =>
    cases h
    refine good_node (by decide +kernel) ?_
    rw [goodNames_append]
    refine ⟨?_, ?_⟩
    · simp only [GoodNames]
      exact ⟨good_content (by decide +kernel), good_leaf (by decide +kernel), good_leaf (by decide +kernel), trivial⟩
    · split
      · rw [GoodNames]; trivial
      · simp only [GoodNames]; exact ⟨good_content (by decide +kernel), trivial⟩
  case physicalProperties c _ _ _ _ _ =>
    cases h
    refine good_node (by decide +kernel) ?_
    split
    · good_names
    · simp only [GoodNames]
      exact ⟨good_mk (by decide +kernel) rfl rfl, trivial⟩
  case content s => cases h; exact good_content (by decide +kernel)
  case ray => cases h; exact good_node (by decide +kernel) (by simp only [GoodNames]; exact ⟨good_node (by decide +kernel) (good_xyz ..), good_node (by decide +kernel) (good_xyz ..), trivial⟩)
  case rect => cases h; exact good_node (by decide +kernel) (by simp only [GoodNames]; exact ⟨good_node (by decide +kernel) (good_xy ..), good_node (by decide +kernel) (good_xy ..), trivial⟩)
  case cframe => cases h; exact good_node (by decide +kernel) (good_cframe ..)
  case vector3 => cases h; exact good_node (by decide +kernel) (good_xyz ..)
  case vector2 => cases h; exact good_node (by decide +kernel) (good_xy ..)
  all_goals
    cases h
    first
    | (refine good_leaf ?_; decide +kernel)
    | (refine good_encodeContent ?_ rfl rfl; decide +kernel)
    | (refine good_mk ?_ rfl rfl; decide +kernel)
    | (refine good_node ?_ ?_
       · decide +kernel
       · good_names)

variable [DecidableEq ρ]

theorem good_property (P : Params) (st st' : EncState ρ) (v : Value ρ) {t : Tag} (h : encodeProperty P st v = .ok (some t, st')) :
    GoodName t := by
  unfold encodeProperty at h
  split at h
  · split at h
    · cases h
    · cases h
    · simp only [Res.ok.injEq, Prod.mk.injEq] at h; exact good_value _ _ _ _ _ h.1
  · simp only [Res.ok.injEq, Prod.mk.injEq] at h; exact good_value _ _ _ _ _ h.1
  · simp only [Res.ok.injEq, Prod.mk.injEq] at h; exact good_value _ _ _ _ _ h.1

theorem good_named {n : Bytes} : ∀ {t : Tag}, GoodName t → GoodName (named n t)
  | ⟨h, ts⟩, hg => by
    rw [GoodName] at hg
    unfold named
    rw [GoodName]
    refine ⟨hg.1, hg.2.1, ?_, hg.2.2.2⟩
    intro a ha
    rw [List.mem_singleton] at ha
    subst ha
    show checkName .attr (str "name") = true
    decide +kernel

theorem good_props (P : Params) (props : Map Bytes (Value ρ)) : ∀ (ns : List Bytes) (st st' : EncState ρ) (ts : List Tag),
    encodeProps P props ns st = .ok (ts, st') → GoodNames ts
  | [], st, st', ts, h => by cases h; exact good_nil
  | n :: ns, st, st', ts, h => by
    rw [encodeProps] at h
    split at h
    · exact good_props P props ns st st' ts h
    · split at h
      · cases h
      · cases h
      next t st1 hp =>
        split at h
        · cases h
        · cases h
        next ts1 st2 hps =>
          cases h
          rw [goodNames_append]
          refine ⟨?_, good_props P props ns _ _ _ hps⟩
          cases t with
          | none => exact good_nil
          | some t => exact good_cons (good_named (good_property P _ _ _ hp)) good_nil

theorem good_all (f : List Nat → ρ → EncState ρ → Res (Tag × EncState ρ))
    (hf : ∀ path p st t st', f path p st = .ok (t, st') → GoodName t) (path : List Nat) :
    ∀ (i : Nat) (ps : List ρ) (st st' : EncState ρ) (ts : List Tag), encodeAll f path i ps st = .ok (ts, st') → GoodNames ts
  | i, [], st, st', ts, h => by cases h; exact good_nil
  | i, p :: ps, st, st', ts, h => by
    rw [encodeAll] at h
    split at h
    · cases h
    · cases h
    next t st1 hp =>
      split at h
      · cases h
      · cases h
      next ts1 st2 hps =>
        cases h
        exact good_cons (hf _ _ _ _ _ hp) (good_all f hf path _ _ _ _ _ hps)

theorem good_item (P : Params) {cls ref : Bytes} {props kids : List Tag} (h1 : GoodNames props) (h2 : GoodNames kids) :
    GoodName (itemTag P cls ref props kids) := by
  unfold itemTag
  simp only
  rw [GoodName]
  refine ⟨?_, rfl, ?_, good_cons (good_node ?_ h1) h2⟩
  · show checkName .tag (str "Item") = true
    decide +kernel
  · intro a ha
    have : a.1 = str "class" ∨ a.1 = str "referent" := by
      cases hr : P.excludeReferent <;> simp only [hr, Bool.false_eq_true, if_false, if_true] at ha
      · simp only [List.mem_cons, List.not_mem_nil, or_false] at ha
        rcases ha with rfl | rfl <;> simp
      · have : setAttrValue [(str "class", cls), (str "referent", ref)] (str "referent") [] = [(str "class", cls)] := rfl
        rw [this, List.mem_singleton] at ha
        subst ha
        simp
    rcases this with h | h <;> rw [h] <;> decide +kernel
  · decide +kernel

theorem good_instance (P : Params) : ∀ (fuel : Nat) (path : List Nat) (p : ρ) (st st' : EncState ρ) (t : Tag),
    encodeInstance P fuel path p st = .ok (t, st') → GoodName t
  | 0, path, p, st, st', t, h => by cases h
  | fuel + 1, path, p, st, st', t, h => by
    rw [encodeInstance] at h
    split at h
    · cases h
    · cases h
    · split at h
      · cases h
      · split at h
        · cases h
        · cases h
        next props st1 hp =>
          split at h
          · cases h
          · cases h
          next kids st2 hk =>
            cases h
            exact good_item P (good_props P _ _ _ _ _ hp)
              (good_all _ (fun _ _ _ _ _ => good_instance P fuel _ _ _ _ _) _ _ _ _ _ _ hk)

theorem good_shared (P : Params) (shared : Map Bytes Bytes) : GoodNames (sharedTags P shared) := by
  unfold sharedTags
  split
  · exact good_nil
  · refine good_cons (good_node (by decide +kernel) ?_) good_nil
    rw [goodNames_forall]
    intro t ht
    obtain ⟨k, -, rfl⟩ := List.mem_map.1 ht
    rw [GoodName]
    refine ⟨by show checkName .tag (str _) = true; decide +kernel, rfl, ?_, good_nil⟩
    intro a ha
    rw [List.mem_singleton] at ha
    subst ha
    show checkName .attr (str "md5") = true
    decide +kernel

theorem good_meta (P : Params) (m : Map Bytes Bytes) : GoodNames (metaTags P m) := by
  unfold metaTags
  rw [goodNames_forall]
  intro t ht
  obtain ⟨k, -, rfl⟩ := List.mem_map.1 ht
  rw [GoodName]
  refine ⟨by show checkName .tag (str _) = true; decide +kernel, rfl, ?_, good_nil⟩
  intro a ha
  rw [List.mem_singleton] at ha
  subst ha
  show checkName .attr (str "name") = true
  decide +kernel

/-- C81: the encoder gives no warnings, for any tree and layout: it never drops a tag or an attribute, or changes a name
in an end tag. -/
theorem C81_encode (P : Params) (L : Layout) (hp : Heap ρ) (rt : Root ρ) {b : Bytes} {hp' : Heap ρ}
    (he : encode P L hp rt = .ok (b, hp')) : encodeWarns P L hp rt = .ok [] := by
  unfold encode at he
  unfold encodeWarns
  split at he
  · cases he
  · cases he
  next t h1 hc =>
    rw [hc]
    simp only [writeToWarns]
    unfold codecEncode at hc
    split at hc
    · cases hc
    · cases hc
    next items st hi =>
      cases hc
      simp only
      congr 1
      have hg : GoodNames ((if P.excludeMetadata then [] else metaTags P rt.metadata) ++
          (if P.excludeExternal then [] else externalTags) ++ items ++ sharedTags P st.shared) := by
        rw [goodNames_append, goodNames_append, goodNames_append]
        refine ⟨⟨⟨?_, ?_⟩, good_all _ (fun _ _ _ _ _ => good_instance P _ _ _ _ _ _) _ _ _ _ _ _ hi⟩, good_shared _ _⟩
        · split
          · exact good_nil
          · exact good_meta _ _
        · split
          · exact good_nil
          · unfold externalTags; good_names
      rw [tagsWarns_good _ hg]
      exact headWarns_good rootHead _ (by decide +kernel) rfl (by decide +kernel)

example : encodeWarns exP {} xHeap xRoot = .ok [] := by
  obtain ⟨b, h1, he⟩ := xEncoded
  exact C81_encode exP {} xHeap xRoot he

/-! ## Writing a document -/

theorem checkName_eq (t : NameType) (n : Bytes) : checkName t n = decide (GoodWord t n) := by
  rw [Bool.eq_iff_iff]
  unfold checkName GoodWord isNameByte
  cases t <;> simp [and_assoc]

theorem writeAttrs_clean : ∀ (as : List (Bytes × Bytes)),
    writeAttrs (as.filter fun a => decide (GoodWord .attr a.1)) = writeAttrs as
  | [] => rfl
  | (n, v) :: as => by
    by_cases h : GoodWord .attr n
    · rw [List.filter_cons_of_pos (by simpa using h)]
      simp only [writeAttrs, writeAttrs_clean as]
    · rw [List.filter_cons_of_neg (by simpa using h)]
      simp only [writeAttrs, writeAttrs_clean as, checkName_eq, h, decide_false, Bool.false_eq_true, if_false, List.nil_append]

theorem writtenEnd_clean (h : Head) : writtenEnd (cleanHead h) = writtenEnd h := by
  unfold writtenEnd cleanHead
  simp only [checkName_eq]
  by_cases h1 : h.endName = []
  · simp only [h1, if_true, ite_self]
  · by_cases h2 : GoodWord .tag h.endName <;> simp [h1, h2]

theorem writeIndent_none {d : Doc} (hp : d.pre = []) (hi : d.indent = []) (x : Int) (b : Bool) (depth : Int) :
    writeIndent d x b depth = ([], depth) := by
  unfold writeIndent; rw [if_pos ⟨hp, hi⟩]

theorem writeAfter_none {d : Doc} (hp : d.pre = []) (hi : d.indent = []) (a b c : Bool) (w : Bytes × Int × Bool) :
    writeAfter d a b c w = ([], w.2.1) := by
  unfold writeAfter
  simp only [writeIndent_none hp hi, ite_self]

/-- Without indentation, the indentation does not depend on whether there are tags, and the depth plays no role. -/
theorem writeTag_plain {d : Doc} (hp : d.pre = []) (hi : d.indent = []) (nt ni : Bool) (depth : Int) (h : Head) (ht : Bool)
    (kids : Int → Bytes × Int) : (writeTag d nt ni depth h ht kids).1 =
      if h.comment then str "<!--" ++ escapeString true h.text ++ str "-->"
      else if !nt && !checkName .tag h.startName then []
      else if !nt && h.empty then 60#8 :: h.startName ++ writeAttrs h.attr ++ [47#8, 62#8]
      else (if nt then [] else 60#8 :: h.startName ++ writeAttrs h.attr ++ [62#8]) ++ writeCData h.cdata ++
        escapeString true h.text ++ (kids depth).1 ++ (if nt then [] else [60#8, 47#8] ++ writtenEnd h ++ [62#8]) := by
  unfold writeTag
  simp only [writeIndent_none hp hi, ite_self]
  split
  · rfl
  · split
    · rfl
    · split
      · rfl
      · simp

theorem cleanHead_comment (h : Head) : (cleanHead h).comment = h.comment := rfl

mutual
theorem writeTags_clean {d d' : Doc} (hp : d.pre = []) (hi : d.indent = []) (hp' : d'.pre = []) (hi' : d'.indent = []) (nt : Bool) :
    ∀ (ts : List Tag) (ni : Bool) (x y : Int), (writeTags d nt ni x (cleanTags ts)).1 = (writeTags d' nt ni y ts).1
  | [], ni, x, y => by simp only [cleanTags, writeTags]
  | t :: ts, ni, x, y => by
    rw [cleanTags]
    by_cases hu : Unwritable t
    · rw [if_pos hu, List.nil_append, writeTags, writeAfter_none hp' hi']
      have : (writeSub d' ni y t).1 = [] := by
        obtain ⟨h, ts'⟩ := t
        rw [writeSub, writeTag_plain hp' hi']
        obtain ⟨h1, h2⟩ := hu
        have h1' : h.comment = false := h1
        have h2' : ¬ GoodWord .tag h.startName := h2
        simp [h1', checkName_eq, h2']
      simp only [this, List.nil_append]
      exact writeTags_clean hp hi hp' hi' nt ts ni x _
    · rw [if_neg hu, List.singleton_append, writeTags, writeTags, writeAfter_none hp hi, writeAfter_none hp' hi']
      simp only
      rw [writeSub_clean hp hi hp' hi' t ni x y, writeTags_clean hp hi hp' hi' nt ts ni _ (writeSub d' ni y t).2.1]
theorem writeSub_clean {d d' : Doc} (hp : d.pre = []) (hi : d.indent = []) (hp' : d'.pre = []) (hi' : d'.indent = []) :
    ∀ (t : Tag) (ni : Bool) (x y : Int), (writeSub d ni x (cleanTag t)).1 = (writeSub d' ni y t).1
  | ⟨h, ts⟩, ni, x, y => by
    rw [cleanTag]
    by_cases hc : h.comment = true
    · rw [if_pos hc, writeSub, writeSub, writeTag_plain hp hi, writeTag_plain hp' hi']
      simp only [hc, if_true]
    · rw [if_neg hc, writeSub, writeSub, writeTag_plain hp hi, writeTag_plain hp' hi']
      have e1 : (cleanHead h).comment = h.comment := rfl
      have e2 : (cleanHead h).startName = h.startName := rfl
      have e3 : (cleanHead h).empty = h.empty := rfl
      have e4 : (cleanHead h).cdata = h.cdata := rfl
      have e5 : (cleanHead h).text = h.text := rfl
      have e6 : writeAttrs (cleanHead h).attr = writeAttrs h.attr := writeAttrs_clean h.attr
      have e7 : (cleanHead h).noIndent = h.noIndent := rfl
      simp only [e1, e2, e3, e4, e5, e6, e7, writtenEnd_clean]
      by_cases he : h.empty = true
      · simp only [he, Bool.not_false, Bool.true_and, if_true]
      · simp only [he, Bool.false_eq_true, if_false]
        rw [writeTags_clean hp hi hp' hi' false ts (ni || h.noIndent) x y]
end

/-- C81: a document that is not indented is written as if the tags and attributes with malformed names, and the malformed end
names, were not there; if the name of its root tag is malformed, only the suffix is written. -/
theorem C81_writer (d : Doc) (hp : d.pre = []) (hi : d.indent = []) (t : Tag) (hr : d.root = some t) :
    (d.excludeRoot = true ∨ ¬ Unwritable t → writeTo d = writeTo { d with root := some (cleanRoot d.excludeRoot t) }) ∧
    (d.excludeRoot = false → Unwritable t → writeTo d = d.suffix) := by
  obtain ⟨h, ts⟩ := t
  refine ⟨fun _ => ?_, ?_⟩
  · unfold writeTo
    rw [hr]
    simp only [cleanRoot]
    by_cases hc : h.comment = true
    · simp only [hc, if_true]
      rw [writeTag_plain hp hi, writeTag_plain (d := { d with root := some ⟨h, ts⟩ }) hp hi]
      simp only [hc, if_true]
    · simp only [hc, Bool.false_eq_true, if_false]
      by_cases hx : d.excludeRoot = true
      · simp only [hx, if_true]
        rw [writeTag_plain hp hi, writeTag_plain (by exact hp) (by exact hi)]
        simp only [hc, Bool.not_true, Bool.false_and, Bool.false_eq_true, if_false, if_true]
        rw [writeTags_clean (by exact hp) (by exact hi) hp hi true ts _ 0 0]
      · have hx' : d.excludeRoot = false := by simpa using hx
        have := writeSub_clean (d := { d with root := some (cleanTag ⟨h, ts⟩) }) (d' := d) hp hi hp hi ⟨h, ts⟩ h.noIndent 0 0
        simp only [cleanTag, if_neg hc, writeSub, hx'] at this
        simp only [hx', Bool.false_eq_true, if_false, cleanTag, hc]
        have e7 : (cleanHead h).noIndent = h.noIndent := rfl
        rw [e7] at this ⊢
        rw [this]
  · intro hx hu
    have h1 : h.comment = false := hu.1
    have h2 : ¬ GoodWord .tag h.startName := hu.2
    unfold writeTo
    rw [hr]
    simp only [hx, hp]
    rw [writeTag_plain hp hi]
    simp [h1, checkName_eq, h2]

theorem cleanTags_length : ∀ (ts : List Tag), (cleanTags ts).length ≤ ts.length
  | [] => by simp [cleanTags]
  | t :: ts => by
    rw [cleanTags]
    have := cleanTags_length ts
    split <;> simp <;> omega

theorem headWarns_iff {h : Head} {kids : List WriteWarn} (hc : h.comment = false) (hs : GoodWord .tag h.startName) :
    headWarns false h kids = [] ↔ cleanHead h = h ∧ (h.empty = false → kids = []) := by
  unfold headWarns
  simp only [hc, checkName_eq, hs, decide_true, Bool.not_true, Bool.false_eq_true, if_false, List.append_eq_nil_iff]
  have e1 : (if (!decide (GoodWord .tag h.endName) && decide (h.endName ≠ [])) = true then [WriteWarn.endName h.endName] else []) = [] ↔
      (if GoodWord .tag h.endName then h.endName else []) = h.endName := by
    by_cases a : GoodWord .tag h.endName <;> by_cases b : h.endName = [] <;> simp [a, b]
  have e2 : (List.map (fun a => WriteWarn.attrName a.1) (List.filter (fun a => !decide (GoodWord .attr a.1)) h.attr)) = [] ↔
      h.attr.filter (fun a => decide (GoodWord .attr a.1)) = h.attr := by
    rw [List.map_eq_nil_iff, List.filter_eq_nil_iff, List.filter_eq_self]
    simp
  have e3 : (if h.empty = true then [] else kids) = [] ↔ (h.empty = false → kids = []) := by
    cases h.empty <;> simp
  have e4 : cleanHead h = h ↔ (h.attr.filter (fun a => decide (GoodWord .attr a.1)) = h.attr ∧
      (if GoodWord .tag h.endName then h.endName else []) = h.endName) := by
    constructor
    · intro e
      exact ⟨congrArg Head.attr e, congrArg Head.endName e⟩
    · rintro ⟨x, y⟩
      unfold cleanHead
      rw [x, y]
  rw [e1, e2, e3, e4]
  constructor
  · rintro ⟨⟨a, b⟩, c⟩; exact ⟨⟨b, a⟩, c⟩
  · rintro ⟨⟨b, a⟩, c⟩; exact ⟨⟨a, b⟩, c⟩

mutual
theorem tagsWarns_iff : ∀ (ts : List Tag), tagsWarns ts = [] ↔ cleanTags ts = ts
  | [] => by simp [tagsWarns, cleanTags]
  | t :: ts => by
    rw [tagsWarns, cleanTags, List.append_eq_nil_iff]
    by_cases hu : Unwritable t
    · rw [if_pos hu]
      refine iff_of_false ?_ ?_
      · rintro ⟨h1, -⟩
        obtain ⟨h, ts'⟩ := t
        have a : h.comment = false := hu.1
        have b : ¬ GoodWord .tag h.startName := hu.2
        rw [tagWarns] at h1
        unfold headWarns at h1
        simp [a, checkName_eq, b] at h1
      · intro e
        have := cleanTags_length ts
        have e' := congrArg List.length e
        simp at e'
        omega
    · rw [if_neg hu, tagWarns_iff t hu, tagsWarns_iff ts]
      simp
theorem tagWarns_iff : ∀ (t : Tag), ¬ Unwritable t → (tagWarns t = [] ↔ cleanTag t = t)
  | ⟨h, ts⟩, hu => by
    rw [tagWarns, cleanTag]
    by_cases hc : h.comment = true
    · rw [if_pos hc]
      refine iff_of_true ?_ rfl
      unfold headWarns
      rw [if_pos hc]
    · have hc' : h.comment = false := by simpa using hc
      have hs : GoodWord .tag h.startName := Classical.byContradiction fun x => hu ⟨hc', x⟩
      rw [if_neg hc, headWarns_iff hc' hs, tagsWarns_iff ts]
      cases he : h.empty <;> simp
end

/-- C81: the writer gives no warning just if nothing is left out: the document has no tag and no attribute with a malformed name
among those that are written, and no malformed end name. -/
theorem C81_writer_warns (d : Doc) (t : Tag) (hr : d.root = some t) :
    writeToWarns d = [] ↔ (d.excludeRoot = true ∨ ¬ Unwritable t) ∧ cleanRoot d.excludeRoot t = t := by
  obtain ⟨h, ts⟩ := t
  unfold writeToWarns
  rw [hr]
  simp only [cleanRoot]
  by_cases hc : h.comment = true
  · simp only [hc, if_true, and_true, headWarns, true_iff]
    right
    rintro ⟨a, -⟩
    have : h.comment = false := a
    rw [hc] at this
    cases this
  · have hc' : h.comment = false := by simpa using hc
    simp only [hc', Bool.false_eq_true, if_false]
    cases hx : d.excludeRoot with
    | true =>
      have := tagsWarns_iff ts
      simp only [headWarns, hc', Bool.false_eq_true, if_false, if_true, true_or, true_and, this, Tag.mk.injEq]
    | false =>
      simp only [Bool.false_eq_true, if_false, false_or]
      by_cases hu : Unwritable ⟨h, ts⟩
      · refine iff_of_false ?_ fun x => x.1 hu
        have b : ¬ GoodWord .tag h.startName := hu.2
        simp [headWarns, hc', checkName_eq, b]
      · have := tagWarns_iff ⟨h, ts⟩ hu
        rw [tagWarns] at this
        rw [this]
        simp [hu]

/-- A tag with a bad attribute, a bad end name, and a bad tag in it. -/
def malformedTag : Tag := ⟨.mk (str "a") (str "b c") [(str "x y", str "1"), (str "z", str "2")] false false none [] false,
  [⟨{ startName := str "b" }, []⟩, ⟨{ startName := str ">" }, []⟩]⟩

/-- The document with it. -/
def malformedDoc (indent : Bytes) : Doc := ⟨[], indent, [], false, some malformedTag⟩

example : writeTo (malformedDoc []) = str "<a z=\"2\"><b></b></a>" ∧
    writeToWarns (malformedDoc []) = [.endName (str "b c"), .attrName (str "x y"), .startName (str ">")] := by
  decide +kernel

/-- C81: with indentation, a tag that is left out at the end shows: the end tag after it is indented one step too many, compared
with the document without that tag. -/
theorem C81_writer_fails : writeTo (malformedDoc (str "\t")) = str "<a z=\"2\">\n\t<b></b>\n\t</a>" ∧
    writeTo ⟨[], str "\t", [], false, some (cleanRoot false malformedTag)⟩ =
      str "<a z=\"2\">\n\t<b></b>\n</a>" := by
  decide +kernel

end Props

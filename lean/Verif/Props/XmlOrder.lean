import Verif.Spec.XmlOrder
import Verif.Spec.Apart
import Verif.Rbxlx.FontPanic
import Verif.Props.XmlPanics
import Verif.Props.DecodeXml
import Verif.Props.XmlIgnored
/-!
# C108: the order of properties in an XML document
-/
namespace Props
open Go Rbxfile Rbxlx Spec

/-- The name of the property that a result is about. -/
def resName : PropRes Nat → Option Bytes
  | .nothing => none
  | .value n _ => some n
  | .ref n _ => some n
  | .shared n _ => some n

theorem getProperty_about {F : FloatText} {discard : Bool} {t : Tag} {r : PropRes Nat} (h : getProperty F discard t = .ok r) {n : Bytes}
    (hn : resName r = some n) : attrValue t.head.attr (str "name") = some n := by
  unfold getProperty at h
  rcases ha : attrValue t.head.attr (str "name") with _ | name <;> rw [ha] at h
  · cases h; cases hn
  · have hp : ∀ ty o u, propValue F discard name ty o u = .ok r → name = n := by
      intro ty o u hu
      unfold propValue at hu
      split at hu
      · cases hu
      · cases hu
      · cases hu; cases hn
      · split at hu
        · split at hu <;> cases hu <;> simpa [resName] using hn
        · cases hu; simpa [resName] using hn
        · cases hu; simpa [resName] using hn
    simp only at h
    congr 1
    split at h
    · split at h
      · cases h; cases hn
      · cases h; simpa [resName] using hn
      · exact hp _ _ _ h
    · exact hp _ _ _ h

/-- What is picked from the results of the tags comes from the tags of that name. -/
theorem pick_named {α : Type} {F : FloatText} {discard : Bool} (n : Bytes) (pick : PropRes Nat → Option α)
    (hpick : ∀ r x, pick r = some x → resName r = some n) : ∀ {ts : List Tag} {rs : List (PropRes Nat)},
    List.Forall₂ (fun t r => getProperty F discard t = .ok r) ts rs → rs.filterMap pick =
      (propertiesNamed n ts).filterMap fun t => match getProperty F discard t with | .ok r => pick r | _ => none
  | _, _, .nil => rfl
  | t :: ts, r :: rs, .cons h hs => by
    have ih := pick_named n pick hpick hs
    simp only [propertiesNamed] at ih ⊢
    rw [List.filter_cons, List.filterMap_cons]
    by_cases hn : attrValue t.head.attr (str "name") = some n
    · simp only [hn, decide_true, if_true, List.filterMap_cons, h, ih]
    · simp only [hn, decide_false, Bool.false_eq_true, if_false]
      rcases hp : pick r with _ | x
      · exact ih
      · exact absurd (getProperty_about h (hpick r x hp)) hn

theorem pick_bare {α : Type} {F : FloatText} {discard : Bool} (n : Bytes) (pick : PropRes Nat → Option α) : ∀ (ts ts' : List Tag),
    (∀ t ∈ ts, attrValue t.head.attr (str "name") = some n) → (∀ t ∈ ts', attrValue t.head.attr (str "name") = some n) →
    ts.map bare = ts'.map bare →
    (ts.filterMap fun t => match getProperty F discard t with | .ok r => pick r | _ => none) =
      ts'.filterMap fun t => match getProperty F discard t with | .ok r => pick r | _ => none
  | [], [], _, _, _ => rfl
  | [], _ :: _, _, _, h => by cases h
  | _ :: _, [], _, _, h => by cases h
  | t :: ts, t' :: ts', h1, h2, h => by
    simp only [List.map_cons, List.cons.injEq] at h
    have e := getProperty_bare (ρ := Nat) F discard ((h1 t (List.mem_cons_self ..)).trans (h2 t' (List.mem_cons_self ..)).symm) h.1
    rw [List.filterMap_cons, List.filterMap_cons, e, pick_bare n pick ts ts' (fun x hx => h1 x (List.mem_cons_of_mem _ hx))
      (fun x hx => h2 x (List.mem_cons_of_mem _ hx)) h.2]

/-- The same is picked from tags with the same properties. -/
theorem pick_same {α : Type} {F : FloatText} {discard : Bool} (n : Bytes) (pick : PropRes Nat → Option α)
    (hpick : ∀ r x, pick r = some x → resName r = some n) {ts ts' : List Tag} {rs rs' : List (PropRes Nat)}
    (h : List.Forall₂ (fun t r => getProperty F discard t = .ok r) ts rs) (h' : List.Forall₂ (fun t r => getProperty F discard t = .ok r) ts' rs')
    (hb : (propertiesNamed n ts).map bare = (propertiesNamed n ts').map bare) : rs.filterMap pick = rs'.filterMap pick := by
  rw [pick_named n pick hpick h, pick_named n pick hpick h']
  refine pick_bare n pick _ _ ?_ ?_ hb <;> intro t ht <;> simpa using (List.mem_filter.1 ht).2

theorem propertyOf_same {F : FloatText} {discard : Bool} {doc doc' : List Tag} {l l' : Map Nat (Inst Nat)} {ts ts' : List Tag}
    {rs rs' : List (PropRes Nat)}
    (h : List.Forall₂ (fun t r => getProperty F discard t = .ok r) ts rs) (h' : List.Forall₂ (fun t r => getProperty F discard t = .ok r) ts' rs')
    (n : Bytes) (hb : (propertiesNamed n ts).map bare = (propertiesNamed n ts').map bare)
    (ht : ∀ ref, targetOf l ref = targetOf l' ref) (hs : sharedEntries doc = sharedEntries doc') :
    propertyOf doc l rs n = propertyOf doc' l' rs' n := by
  have e1 : refsTo rs n = refsTo rs' n := by
    refine pick_same n _ ?_ h h' hb
    rintro r x hx
    cases r <;> simp only [reduceCtorEq] at hx
    split at hx
    · next e => rw [← e]; rfl
    · cases hx
  have e2 : hashesOf rs n = hashesOf rs' n := by
    refine pick_same n _ ?_ h h' hb
    rintro r x hx
    cases r <;> simp only [reduceCtorEq] at hx
    split at hx
    · next e => rw [← e]; rfl
    · cases hx
  have e3 : lastValue rs n = lastValue rs' n := by
    unfold lastValue
    congr 1
    refine pick_same n _ ?_ h h' hb
    rintro r x hx
    cases r <;> simp only [reduceCtorEq] at hx
    split at hx
    · next e => rw [← e]; rfl
    · cases hx
  unfold propertyOf
  rw [e1, e2, e3, hs]
  simp only [ht]

theorem builds_skip {h : Heap Nat} {K : Nat → Tag → Inst Nat → Prop} {t : Tag} {ts : List Tag} {ps : List Nat} {l : Map Nat (Inst Nat)}
    (hb : Builds h K (t :: ts) ps l) (ht : ¬ IsItem t) : Builds h K ts ps l := by
  cases hb with
  | skip _ h => exact h
  | item h1 h2 => exact absurd ⟨h1, by rw [h2]; exact nofun⟩ ht

/-- The lists of instances of rearranged documents are as long. -/
theorem rearranged_length {h h' : Heap Nat} {K K' : Nat → Tag → Inst Nat → Prop} {ts ts' : List Tag} (hr : Rearranged ts ts') :
    ∀ {ps ps' : List Nat} {l l' : Map Nat (Inst Nat)}, Builds h K ts ps l → Builds h' K' ts' ps' l' → l.length = l'.length := by
  induction hr with
  | nil => intro ps ps' l l' h1 h2; cases h1; cases h2; rfl
  | left ht _ ih => exact fun h1 h2 => ih (builds_skip h1 ht) h2
  | right ht _ ih => exact fun h1 h2 => ih h1 (builds_skip h2 ht)
  | item i1 i2 i3 i4 i5 i6 _ _ ih1 ih2 =>
    intro ps ps' l l' h1 h2
    cases h1 with
    | skip hs _ => exact absurd (hs i1) i4
    | item a1 a2 a3 a4 a5 a6 a7 a8 =>
      cases h2 with
      | skip hs _ => exact absurd (hs i2) (by rw [← i3]; exact i4)
      | item b1 b2 b3 b4 b5 b6 b7 b8 =>
        have e1 := ih1 a7 b7
        have e2 := ih2 a8 b8
        simp only [List.length_cons, List.length_append, e1, e2]

/-- Instances of rearranged documents at the same place. -/
def SameBuilt (K K' : Nat → Tag → Inst Nat → Prop) (x y : Nat × Inst Nat) : Prop :=
  x.1 = y.1 ∧ x.2.className = y.2.className ∧ x.2.reference = y.2.reference ∧ x.2.isService = y.2.isService ∧ x.2.children = y.2.children ∧
    ∃ t t', K x.1 t x.2 ∧ K' y.1 t' y.2 ∧
      ∀ n, (propertiesNamed n (propertyTags t.tags)).map bare = (propertiesNamed n (propertyTags t'.tags)).map bare

theorem rearranged_built {h h' : Heap Nat} {K K' : Nat → Tag → Inst Nat → Prop} {ts ts' : List Tag} (hr : Rearranged ts ts') :
    ∀ {ps ps' : List Nat} {l l' : Map Nat (Inst Nat)}, Builds h K ts ps l → Builds h' K' ts' ps' l' → l.map Prod.fst = l'.map Prod.fst →
      ps = ps' ∧ List.Forall₂ (SameBuilt K K') l l' := by
  induction hr with
  | nil => intro ps ps' l l' h1 h2 _; cases h1; cases h2; exact ⟨rfl, .nil⟩
  | left ht _ ih => exact fun h1 h2 => ih (builds_skip h1 ht) h2
  | right ht _ ih => exact fun h1 h2 => ih h1 (builds_skip h2 ht)
  | @item t t' ts ts' i1 i2 i3 i4 i5 i6 r1 r2 ih1 ih2 =>
    intro ps ps' l l' h1 h2 hk
    cases h1 with
    | skip hs _ => exact absurd (hs i1) i4
    | item a1 a2 a3 a4 a5 a6 a7 a8 =>
      cases h2 with
      | skip hs _ => exact absurd (hs i2) (by rw [← i3]; exact i4)
      | item b1 b2 b3 b4 b5 b6 b7 b8 =>
        have e1 := rearranged_length r1 a7 b7
        simp only [List.map_cons, List.map_append, List.cons.injEq] at hk
        obtain ⟨k1, k2⟩ := hk
        obtain ⟨k3, k4⟩ := List.append_inj k2 (by simpa using e1)
        obtain ⟨c1, c2⟩ := ih1 a7 b7 k3
        obtain ⟨c3, c4⟩ := ih2 a8 b8 k4
        refine ⟨by rw [k1, c3], .cons ⟨k1, ?_, ?_, ?_, c1, t, t', a6, b6, i6⟩ (List.rel_append c2 c4)⟩
        · rw [i3, b2] at a2; exact (Option.some.inj a2).symm
        · rw [a3, b3, i5]
        · rw [a4, b4]

theorem built_keys {K K' : Nat → Tag → Inst Nat → Prop} : ∀ {l l' : List (Nat × Inst Nat)}, List.Forall₂ (SameBuilt K K') l l' →
    l.map (fun x => (x.1, x.2.reference)) = l'.map fun x => (x.1, x.2.reference)
  | _, _, .nil => rfl
  | _, _, .cons hx hs => by rw [List.map_cons, List.map_cons, built_keys hs, hx.1, hx.2.2.1]

theorem related_mem {α β : Type} {R : α → β → Prop} : ∀ {l : List α} {l' : List β}, List.Forall₂ R l l' → ∀ {x : α}, x ∈ l → ∃ y ∈ l', R x y
  | _, _, .nil, x, hx => by cases hx
  | _, _, .cons hxy hs, x, hx => by
    rcases List.mem_cons.1 hx with rfl | hx
    · exact ⟨_, List.mem_cons_self .., hxy⟩
    · obtain ⟨y, hy, h⟩ := related_mem hs hx
      exact ⟨y, List.mem_cons_of_mem _ hy, h⟩

theorem builds_get {h : Heap Nat} {K : Nat → Tag → Inst Nat → Prop} {ts : List Tag} {ps : List Nat} {l : Map Nat (Inst Nat)}
    (b : Builds h K ts ps l) : ∀ {p : Nat} {i : Inst Nat}, (p, i) ∈ l → h.get? p = some i := by
  induction b with
  | nil => intro p i h; cases h
  | skip _ _ ih => exact ih
  | item _ _ _ _ hg _ _ _ ih1 ih2 =>
    intro p i h
    rcases List.mem_cons.1 h with e | h
    · cases e; exact hg
    · rcases List.mem_append.1 h with h | h
      · exact ih1 h
      · exact ih2 h

theorem target_of_keys {l l' : Map Nat (Inst Nat)} (h : l.map (fun x => (x.1, x.2.reference)) = l'.map fun x => (x.1, x.2.reference)) (ref : Bytes) :
    targetOf l ref = targetOf l' ref := by
  have key : ∀ m : Map Nat (Inst Nat), ((m.filter fun x => decide (x.2.reference = ref)).getLast?).map Prod.fst =
      (((m.map fun x => (x.1, x.2.reference)).filter fun x => decide (x.2 = ref)).getLast?).map Prod.fst := by
    intro m
    rw [List.filter_map, List.getLast?_map, Option.map_map]
    rfl
  unfold targetOf
  rw [key l, key l', h]

theorem shared_of_pairs : ∀ doc : List Tag, sharedEntries doc = (sharedPairs doc).filterMap fun x =>
    match b64Decode x.1, b64Decode x.2 with | some key, some value => some (key, value) | _, _ => none
  | [] => rfl
  | t :: ts => by
    have ih := shared_of_pairs ts
    have one : ∀ us : List Tag, us.filterMap sharedEntry = (us.filterMap fun s =>
        if s.head.startName = str "SharedString" then (attrValue s.head.attr (str "md5")).map fun k => (k, tagContent s) else none).filterMap
        fun x => match b64Decode x.1, b64Decode x.2 with | some key, some value => some (key, value) | _, _ => none := by
      intro us
      rw [List.filterMap_filterMap]
      congr 1
      funext s
      unfold sharedEntry
      by_cases hs : s.head.startName = str "SharedString"
      · rw [if_pos hs, if_pos hs]
        rcases attrValue s.head.attr (str "md5") with _ | k
        · rfl
        · simp only [Option.map_some, Option.bind_some, content_eq]
          rcases b64Decode k with _ | a <;> rcases b64Decode (tagContent s) with _ | b <;> rfl
      · rw [if_neg hs, if_neg hs]; rfl
    simp only [sharedEntries, sharedPairs] at ih ⊢
    rw [List.flatMap_cons, ih]
    by_cases hs : t.head.startName = str "SharedStrings"
    · simp only [hs, if_true, List.filter_cons, decide_true, List.flatMap_cons, List.filterMap_append, one]
    · simp only [hs, if_false, List.filter_cons, decide_false, Bool.false_eq_true, List.nil_append]

theorem rearranged_property {ts ts' : List Tag} (hr : Rearranged ts ts') : ∀ {t' : Tag}, PropertyIn ts' t' → ∀ {n : Bytes},
    attrValue t'.head.attr (str "name") = some n →
    ∃ t, PropertyIn ts t ∧ attrValue t.head.attr (str "name") = some n ∧ bare t = bare t' := by
  induction hr with
  | nil => intro t' h; exact absurd h (not_propertyIn_nil t')
  | left ht _ ih =>
    intro t' h n hn
    obtain ⟨t, h1, h2⟩ := ih h hn
    exact ⟨t, propertyIn_cons.2 (.inr h1), h2⟩
  | right ht _ ih =>
    intro t' h n hn
    rcases propertyIn_cons.1 h with ⟨h1, h2, -⟩ | h
    · exact absurd ⟨h1, h2⟩ ht
    · exact ih h hn
  | @item s s' ts ts' i1 i2 i3 i4 i5 i6 r1 r2 ih1 ih2 =>
    intro t' h n hn
    rcases propertyIn_cons.1 h with ⟨h1, h2, h3 | h3⟩ | h
    · have hm : bare t' ∈ (propertiesNamed n (propertyTags s'.tags)).map bare :=
        List.mem_map_of_mem (List.mem_filter.2 ⟨h3, by simpa using hn⟩)
      rw [← i6 n] at hm
      obtain ⟨t, h4, h5⟩ := List.mem_map.1 hm
      obtain ⟨h6, h7⟩ := List.mem_filter.1 h4
      exact ⟨t, propertyIn_cons.2 (.inl ⟨i1, i4, .inl h6⟩), by simpa using h7, h5⟩
    · obtain ⟨t, h4, h5⟩ := ih1 h3 hn
      exact ⟨t, propertyIn_cons.2 (.inl ⟨i1, i4, .inr h4⟩), h5⟩
    · obtain ⟨t, h4, h5⟩ := ih2 h hn
      exact ⟨t, propertyIn_cons.2 (.inr h4), h5⟩

/-- C108: if a file is decoded to a tree, so is one whose document has the same properties in another order: to the same tree. -/
theorem C108_order (F : FloatText) (discard : Bool) {s s' rest rest' : Bytes} {doc doc' : Tag} (hr : readFrom s = .ok (some doc, rest))
    (hr' : readFrom s' = .ok (some doc', rest')) (hd : RearrangedDocument doc doc') {h : Heap Nat} {root : Root Nat}
    (ho : decode F discard s = .ok (h, root)) : ∃ h' root', decode F discard s' = .ok (h', root') ∧ SameDecoded h h' root root' := by
  have hp : decode F discard s' ≠ .panic := by
    intro hx
    obtain ⟨d, r, e, t', h1, h2⟩ := (C63_panics_iff F discard s').1 hx
    rw [hr'] at e
    cases e
    obtain ⟨n, hn⟩ := Option.ne_none_iff_exists'.1 h2.1
    obtain ⟨t, h3, h4, h5⟩ := rearranged_property hd.items h1 hn
    have h6 : getProperty (ρ := Nat) F discard t = .panic := by
      rw [getProperty_bare F discard (h4.trans hn.symm) h5, getProperty_panic_iff]; exact h2
    have := (C63_panics_iff F discard s).2 ⟨doc, rest, hr, t, h3, (getProperty_panic_iff F discard t).1 h6⟩
    rw [ho] at this; cases this
  have hne : ∀ e, decode F discard s' ≠ .err e := by
    intro e hx
    simp only [decode, hr'] at hx
    exact (codecDecode_panic F discard (some doc')).1 e hx
  rcases ho' : decode F discard s' with ⟨h', root'⟩ | e | _
  rotate_left
  · exact absurd ho' (hne e)
  · exact absurd ho' hp
  refine ⟨h', root', rfl, ?_⟩
  have m1 := C70_metadata hr ho
  have m2 := C70_metadata hr' ho'
  simp only [decode, hr] at ho
  simp only [decode, hr'] at ho'
  obtain ⟨l, b1, k1, k2, -⟩ := codecDecode_spec ho
  obtain ⟨l', b1', k1', k2', -⟩ := codecDecode_spec ho'
  have hl := rearranged_length hd.items b1 b1'
  have hlen : h.length = h'.length := by
    have e1 := congrArg List.length k1
    have e2 := congrArg List.length k1'
    simp only [List.length_map, List.length_range] at e1 e2
    omega
  obtain ⟨c1, c2⟩ := rearranged_built hd.items b1 b1' (by rw [k1, k1', hlen])
  refine ⟨c1, fun k => ?_, fun id => ?_⟩
  · rw [m1, m2, hd.metadata]
  · have keys : l.map (fun x => (x.1, x.2.reference)) = l'.map fun x => (x.1, x.2.reference) := by
      exact built_keys c2
    by_cases hid : id < h.length
    · right
      have hmem : id ∈ l.map Prod.fst := by rw [k1]; exact List.mem_range.2 hid
      obtain ⟨⟨p, i⟩, hx, rfl⟩ := List.mem_map.1 hmem
      obtain ⟨y, hy, q1, q2, q3, q4, q5, t, t', ⟨rs, q6, q7⟩, ⟨rs', q8, q9⟩, q10⟩ : ∃ y ∈ l', SameBuilt (fun _ => PropsOf F discard doc.tags l) (fun _ => PropsOf F discard doc'.tags l') (p, i) y := related_mem c2 hx
      obtain ⟨q, j⟩ := y
      dsimp only at *
      subst q1
      refine ⟨i, j, builds_get b1 hx, builds_get b1' hy, q2, q3, q4, q5, fun n => ?_⟩
      rw [q7, q9]
      exact propertyOf_same q6 q8 n (q10 n) (target_of_keys keys) (by rw [shared_of_pairs, shared_of_pairs, hd.shared])
    · left
      have no : ∀ (m : Heap Nat), m.map Prod.fst = List.range m.length → m.length = h.length → m.get? id = none := by
        intro m hm e
        rw [Map.get?_eq_none]
        show id ∉ m.map Prod.fst
        rw [hm, List.mem_range]; omega
      exact ⟨no h k2 rfl, no h' k2' hlen.symm⟩

/-! ## Cases -/

/-- Two files that differ in the order of properties, and in the place of a child. -/
def firstOrder : Bytes := str ("<roblox version=\"4\"><Item class=\"A\" referent=\"R\"><Properties><int name=\"I\">1</int><Ref name=\"J\">R</Ref>" ++
  "</Properties><Item class=\"B\"></Item></Item></roblox>")

/-- See `firstOrder`. -/
def secondOrder : Bytes := str ("<roblox version=\"4\"><Item class=\"A\" referent=\"R\"><Item class=\"B\"></Item><Properties><Ref name=\"J\">R</Ref>" ++
  "<int name=\"I\">1</int></Properties></Item></roblox>")

/-- The hypotheses are met. -/
example : ∃ doc doc', readFrom firstOrder = .ok (some doc, []) ∧ readFrom secondOrder = .ok (some doc', []) ∧ RearrangedDocument doc doc' ∧
    (decode goFloat true firstOrder).isOk := by
  refine ⟨plainTag "roblox" [("version", "4")] "" [plainTag "Item" [("class", "A"), ("referent", "R")] "" [plainTag "Properties" [] "" [
      plainTag "int" [("name", "I")] "1" [], plainTag "Ref" [("name", "J")] "R" []], plainTag "Item" [("class", "B")] "" []]],
    plainTag "roblox" [("version", "4")] "" [plainTag "Item" [("class", "A"), ("referent", "R")] "" [plainTag "Item" [("class", "B")] "" [],
      plainTag "Properties" [] "" [plainTag "Ref" [("name", "J")] "R" [], plainTag "int" [("name", "I")] "1" []]]],
    by decide +kernel, by decide +kernel, ⟨?_, fun _ => rfl, rfl⟩, by decide +kernel⟩
  have no : ∀ us, ¬ IsItem (plainTag "Properties" [] "" us) := fun us h => absurd h.1 (by decide : ¬ str "Properties" = str "Item")
  refine .item rfl rfl (by decide) (by decide) (by decide) ?_ ?_ .nil
  · intro n
    show (propertiesNamed n [plainTag "int" [("name", "I")] "1" [], plainTag "Ref" [("name", "J")] "R" []]).map bare =
      (propertiesNamed n [plainTag "Ref" [("name", "J")] "R" [], plainTag "int" [("name", "I")] "1" []]).map bare
    have e1 : ∀ a b c, attrValue (plainTag a [("name", b)] c []).head.attr (str "name") = some (str b) := by
      intro a b c
      simp [plainTag, attrValue, Tag.head]
    simp only [propertiesNamed, List.filter_cons, e1, Option.some.injEq, List.filter_nil]
    by_cases h1 : str "I" = n
    · subst h1; decide
    · by_cases h2 : str "J" = n <;> simp [h1, h2]
  · exact .left (no _) (.item rfl rfl (by decide) (by decide) (by decide) (fun _ => rfl) .nil (.right (no _) .nil))

/-- The last of several properties of a name counts: their order does matter. -/
theorem C108_same_name : (match decode goFloat true (str ("<roblox version=\"4\"><Item class=\"A\"><Properties>" ++
        "<int name=\"I\">1</int><int name=\"I\">2</int></Properties></Item></roblox>")) with
      | .ok (h, _) => h.map fun x => x.2.properties
      | _ => []) = [[(str "I", .int 2)]] ∧
    (match decode goFloat true (str ("<roblox version=\"4\"><Item class=\"A\"><Properties>" ++
        "<int name=\"I\">2</int><int name=\"I\">1</int></Properties></Item></roblox>")) with
      | .ok (h, _) => h.map fun x => x.2.properties
      | _ => []) = [[(str "I", .int 1)]] := by
  decide +kernel

end Props

import Verif.Rbxlx.Ignored
import Verif.Props.XmlProperty
import Verif.Props.XmlWarnings
/-!
# C107: what the XML decoder ignores
-/
namespace Props
open Go Rbxfile Rbxlx Spec

theorem noProperty (F : FloatText) (discard : Bool) {t : Tag} (h : NoProperty t) : getProperty (ρ := Nat) F discard t = .ok .nothing := by
  unfold getProperty
  rcases hn : attrValue t.head.attr (str "name") with _ | name
  · rfl
  · rcases h with h | ⟨h1, h2⟩
    · rw [hn] at h; cases h
    · rcases hc : getCanonType t.head.startName with ⟨ty, o⟩
      have ho : o = false := by
        cases o with
        | false => rfl
        | true => exact absurd ((optional_prefix _).1 (by rw [hc])) h2
      subst ho
      by_cases hty : ty = .invalid
      · subst hty; rfl
      · exact absurd ((C80_type _ _ hty).1.2 hc) (h1 ty)

theorem sameProperties (F : FloatText) (discard : Bool) {ts ts' : List Tag} (h : SameProperties ts ts') (p : Nat) :
    ∀ (props : Map Bytes (Value Nat)) (st : Rbxlx.DecState), getProps F discard p ts props st = getProps F discard p ts' props st := by
  induction h with
  | nil => exact fun _ _ => rfl
  | left hno _ ih => intro props st; rw [getProps, noProperty F discard hno]; exact ih _ _
  | right hno _ ih => intro props st; rw [ih]; symm; rw [getProps, noProperty F discard hno]; rfl
  | both hn hb _ ih =>
    intro props st
    rw [getProps, getProps, getProperty_bare F discard hn hb]
    rcases getProperty F discard _ with r | e | _
    · exact ih _ _
    · rfl
    · rfl

theorem noItem (F : FloatText) (discard : Bool) {inItem after : Bool} {t : Tag} (h : NoItem inItem after t) (parent : Option Nat)
    (hp : parent.isSome = inItem) (props : Map Bytes (Value Nat)) (st : Rbxlx.DecState) :
    getItem F discard t parent after props st = .ok ([], after, props, st) := by
  obtain ⟨hd, ts⟩ := t
  rw [getItem.eq_def]
  dsimp only
  rcases h with ⟨h1, h2⟩ | ⟨h1, h2⟩ | ⟨h1, h2⟩
  · rw [if_neg (show ¬ hd.startName = str "Item" from h1), if_neg (show ¬ hd.startName = str "Properties" from h2)]
  · replace h1 : hd.startName = str "Item" := h1
    replace h2 : attrValue hd.attr (str "class") = none := h2
    rw [if_pos h1, h2]
  · replace h1 : hd.startName = str "Properties" := h1
    rw [if_neg (by rw [h1]; decide), if_pos h1]
    rcases parent with _ | p
    · rfl
    · rcases h2 with h2 | h2
      · rw [h2] at hp; cases hp
      · rw [h2]; rfl

theorem getItems_without (F : FloatText) (discard : Bool) {inItem after : Bool} {t : Tag} (h : NoItem inItem after t) (ts : List Tag)
    (parent : Option Nat) (hp : parent.isSome = inItem) (props : Map Bytes (Value Nat)) (st : Rbxlx.DecState) :
    getItems F discard (t :: ts) parent after props st = getItems F discard ts parent after props st := by
  rw [getItems, noItem F discard h parent hp]
  simp only
  rcases getItems F discard ts parent after props st with ⟨a, b, c⟩ | e | _ <;> rfl

theorem sameItems (F : FloatText) (discard : Bool) {inItem after : Bool} {ts ts' : List Tag} (h : SameItems inItem after ts ts') :
    ∀ (parent : Option Nat), parent.isSome = inItem → ∀ (props : Map Bytes (Value Nat)) (st : Rbxlx.DecState),
      getItems F discard ts parent after props st = getItems F discard ts' parent after props st := by
  induction h with
  | nil => exact fun _ _ _ _ => rfl
  | left hno _ ih => intro parent hp props st; rw [getItems_without F discard hno _ _ hp]; exact ih parent hp props st
  | right hno _ ih => intro parent hp props st; rw [getItems_without F discard hno _ _ hp]; exact ih parent hp props st
  | @item inItem after hd hd' sub sub' ts ts' h1 h2 h3 h4 _ _ ih1 ih2 =>
    intro parent hp props st
    have : getItem F discard ⟨hd, sub⟩ parent after props st = getItem F discard ⟨hd', sub'⟩ parent after props st := by
      rw [getItem.eq_def, getItem.eq_def]
      dsimp only
      rw [if_pos h1, if_pos h2, h3]
      rcases attrValue hd'.attr (str "class") with _ | cls
      · rfl
      · simp only [enterItem, h4]
        rw [ih1 _ rfl]
    rw [getItems, getItems, this]
    rcases hg : getItem F discard ⟨hd', sub'⟩ parent after props st with ⟨a, b, c, d⟩ | e | _
    · simp only
      have hb : b = after := by
        rw [getItem.eq_def] at hg
        dsimp only at hg
        rw [if_pos h2] at hg
        rcases hc : attrValue hd'.attr (str "class") with _ | cls <;> rw [hc] at hg
        · simp only [Res.ok.injEq, Prod.mk.injEq] at hg; exact hg.2.1.symm
        · simp only at hg
          split at hg
          · cases hg
          · cases hg
          · simp only [Res.ok.injEq, Prod.mk.injEq] at hg; exact hg.2.1.symm
      rw [hb, ih2 parent hp]
    · rfl
    · rfl
  | @properties hd hd' sub sub' ts ts' h1 h2 h3 _ ih =>
    intro parent hp props st
    rcases parent with _ | p
    · cases hp
    · have : ∀ (k : Head) (s : List Tag), k.startName = str "Properties" → getItem F discard ⟨k, s⟩ (some p) false props st =
          (match getProps F discard p s props st with
          | .panic => .panic
          | .err e => .err e
          | .ok (props, st) => .ok ([], true, props, st)) := by
        intro k s hk
        rw [getItem.eq_def]
        dsimp only
        rw [if_neg (by rw [hk]; decide), if_pos hk]
        rfl
      rw [getItems, getItems, this _ _ h1, this _ _ h2, sameProperties F discard h3]
      rcases getProps F discard p sub' props st with ⟨a, b⟩ | e | _
      · simp only; rw [ih (some p) rfl]
      · rfl
      · rfl

/-- The loop over the shared strings of the documents. -/
def sharedLoop (refs : List (PropRef Nat)) (h : Heap Nat) : List (Bytes × Bytes) → Heap Nat
  | [] => h
  | x :: xs => sharedLoop refs (match b64Decode x.1, b64Decode x.2 with
      | some key, some value => assignShared refs key value h
      | _, _ => h) xs

theorem sharedLoop_append (refs : List (PropRef Nat)) : ∀ (a b : List (Bytes × Bytes)) (h : Heap Nat),
    sharedLoop refs h (a ++ b) = sharedLoop refs (sharedLoop refs h a) b
  | [], b, h => rfl
  | x :: a, b, h => sharedLoop_append refs a b _

theorem sharedTags_loop (refs : List (PropRef Nat)) : ∀ (ts : List Tag) (h : Heap Nat), ts.foldl (sharedTag refs) h =
    sharedLoop refs h (ts.filterMap fun s =>
      if s.head.startName = str "SharedString" then (attrValue s.head.attr (str "md5")).map fun k => (k, tagContent s) else none)
  | [], h => rfl
  | t :: ts, h => by
    rw [List.foldl_cons, sharedTags_loop refs ts, List.filterMap_cons, sharedTag]
    by_cases hs : t.head.startName = str "SharedString"
    · rw [if_neg (fun e => e hs), if_pos hs]
      rcases attrValue t.head.attr (str "md5") with _ | k
      · rfl
      · rw [← content_eq]; rfl
    · rw [if_pos hs, if_neg hs]

/-- The loop over the metadata of the documents. -/
theorem rootTags_loops (refs : List (PropRef Nat)) : ∀ (ts : List Tag) (m : Map Bytes Bytes) (h : Heap Nat), rootTags refs ts m h =
    ((metaPairs ts).foldl (fun m x => m.set x.1 x.2) m, sharedLoop refs h (sharedPairs ts))
  | [], m, h => rfl
  | t :: ts, m, h => by
    rw [rootTags]
    by_cases h1 : t.head.startName = str "Meta"
    · have h2 : ¬ t.head.startName = str "SharedStrings" := by rw [h1]; decide
      rw [if_pos h1]
      have e1 : sharedPairs (t :: ts) = sharedPairs ts := by simp [sharedPairs, h2]
      rcases ha : attrValue t.head.attr (str "name") with _ | k
      · have e2 : metaPairs (t :: ts) = metaPairs ts := by simp [metaPairs, h1, ha]
        simp only
        rw [rootTags_loops refs ts, e1, e2]
      · have e2 : metaPairs (t :: ts) = (k, t.head.text) :: metaPairs ts := by simp [metaPairs, h1, ha]
        simp only
        rw [rootTags_loops refs ts, e1, e2, List.foldl_cons]
    · rw [if_neg h1]
      have e2 : metaPairs (t :: ts) = metaPairs ts := by simp [metaPairs, h1]
      by_cases h2 : t.head.startName = str "SharedStrings"
      · rw [if_pos h2, rootTags_loops refs ts, e2, sharedTags_loop, ← sharedLoop_append]
        congr 2
        simp [sharedPairs, h2]
      · rw [if_neg h2, rootTags_loops refs ts, e2]
        congr 2
        simp [sharedPairs, h2]

/-- C107: two files whose documents are the same but for what does not count are decoded to the same: the same tree, or the same failure. -/
theorem C107_ignored (F : FloatText) (discard : Bool) {s s' rest rest' : Bytes} {doc doc' : Tag} (hr : readFrom s = .ok (some doc, rest))
    (hr' : readFrom s' = .ok (some doc', rest')) (hd : SameDocument doc doc') : decode F discard s = decode F discard s' := by
  simp only [decode, hr, hr', codecDecode]
  rw [sameItems F discard hd.items none rfl]
  rcases getItems F discard doc'.tags none false [] {} with ⟨a, b, c⟩ | e | _
  · simp only [rootTags_loops, hd.metadata, hd.shared]
  · rfl
  · rfl

/-! ## Cases -/

/-- A document; the same document with comments, other tags and attributes, an Item without class, properties without names and of unknown
types, a second list of properties, and the metadata in another place. -/
def plainDoc : Bytes := str (
  "<roblox version=\"4\"><Meta name=\"M\">v</Meta><Item class=\"A\" referent=\"R\"><Properties><int name=\"I\">1</int></Properties></Item></roblox>")

/-- See `plainDoc`. -/
def ornateDoc : Bytes := str (
  "<roblox version=\"4\"><!-- c --><External>null</External><Item class=\"A\" referent=\"R\" x=\"1\"><!-- c --><Other><Item class=\"B\"></Item></Other>" ++
  "<Properties y=\"\"><!-- c --><int>2</int><int y=\"\" name=\"I\">1</int><what name=\"I\">3</what></Properties>" ++
  "<Properties><int name=\"I\">4</int></Properties><Item><Item class=\"C\"></Item></Item></Item><Meta name=\"M\">v</Meta></roblox>")

/-- What is decoded. -/
def ignoredView (s : Bytes) : Option (List (Bytes × Bytes × List (Bytes × Option (BitVec 32))) × Option Bytes) :=
  match decode goFloat false s with
  | .ok (h, r) => some (h.map fun x => (x.2.className, x.2.reference, x.2.properties.map fun y =>
      (y.1, match y.2 with | .int n => some n | _ => none)), r.metadata.get? (str "M"))
  | _ => none

set_option synthInstance.maxSize 1024 in
example : ignoredView plainDoc = some ([(str "A", str "R", [(str "I", some 1)])], some (str "v")) ∧ ignoredView ornateDoc = ignoredView plainDoc := by
  decide +kernel

/-- A tag as it is read, without subtags that do not count. -/
def plainTag (name : String) (attr : List (String × String)) (text : String) (sub : List Tag) : Tag :=
  ⟨{ startName := str name, endName := str name, attr := attr.map fun a => (str a.1, str a.2), text := str text }, sub⟩

/-- The hypotheses are met: the documents of two files of which one has tags and attributes that do not count. -/
example : ∃ doc doc', readFrom (str ("<roblox version=\"4\"><Item class=\"A\"><Properties><int name=\"I\">1</int></Properties></Item></roblox>")) =
      .ok (some doc, []) ∧
    readFrom (str ("<roblox version=\"4\"><!--c--><Item x=\"\" class=\"A\"><z></z><Properties><int z=\"\" name=\"I\">1</int>" ++
      "<w name=\"I\">2</w></Properties></Item></roblox>")) = .ok (some doc', []) ∧ SameDocument doc doc' := by
  refine ⟨plainTag "roblox" [("version", "4")] "" [plainTag "Item" [("class", "A")] "" [plainTag "Properties" [] "" [
      plainTag "int" [("name", "I")] "1" []]]],
    plainTag "roblox" [("version", "4")] "" [⟨{ comment := true, text := str "c" }, []⟩,
      plainTag "Item" [("x", ""), ("class", "A")] "" [plainTag "z" [] "" [], plainTag "Properties" [] "" [
      plainTag "int" [("z", ""), ("name", "I")] "1" [], plainTag "w" [("name", "I")] "2" []]]], by decide +kernel, by decide +kernel, ?_, rfl, rfl⟩
  refine .right (.inl (by decide)) (.item rfl rfl (by decide) (by decide) ?_ .nil)
  refine .right (.inl (by decide)) (.properties rfl rfl ?_ .nil)
  refine .both (by decide) (by decide) (.right (.inr ⟨?_, by decide⟩) .nil)
  intro ty
  unfold TypeTag
  cases ty <;> decide +kernel

/-- A comment counts in a tag of type Content: there, only the first subtag is looked at. -/
theorem C107_comment_counts : (match decode goFloat true (str ("<roblox version=\"4\"><Item class=\"A\"><Properties>" ++
        "<Content name=\"C\"><url>u</url></Content></Properties></Item></roblox>")) with
      | .ok (h, _) => h.map fun x => x.2.properties.length
      | _ => []) = [1] ∧
    (match decode goFloat true (str ("<roblox version=\"4\"><Item class=\"A\"><Properties>" ++
        "<Content name=\"C\"><!--c--><url>u</url></Content></Properties></Item></roblox>")) with
      | .ok (h, _) => h.map fun x => x.2.properties.length
      | _ => []) = [0] := by
  decide +kernel

end Props

import Verif.Rbxl.NotTree
import Verif.Rbxfile.CopyFinite
import Verif.Json.Finite
import Verif.Props.EncodeNoPanic
import Verif.Props.Copy
import Verif.Props.XmlLayout
import Verif.Props.FreshExamples
/-!
# C97: structures of instances that are not trees

`Trees h ps l`: the instances `ps` and what is below them are trees, `l` being all of them. `Forest h ps l`: the same, but an instance
may occur several times in `l`; no instance is nil or below itself. What is neither, contains a nil instance or a cycle.
-/
namespace Props
open Go Rbxfile Spec

variable {ρ : Type} [DecidableEq ρ]

section binary
open Rbxl

/-- C97: exactly when the binary encoder panics: at least one of the instances at the top is not nil, and they are no trees, or there
are `BadOptionals` as in C19. In particular it panics on every structure in which an instance occurs twice, is below itself, or has a
child that is nil. -/
theorem C97_binary_panics_iff (lz : LZ4) (hlz : lz.Lossless) (u : Bool) (it : Iter) (srt : Sorter) (hash : Bytes → Bytes) (place : Bool)
    (h : Heap ρ) (root : Root ρ) (hn : h.length < 2 ^ 31)
    (hw : ∀ p a, h.get? p = some a → ∀ n t v, a.properties.get? n = some (.optional t (some v)) → v.type = t) :
    encodeRoot lz u it srt hash place h root = .panic ↔ (∃ p ∈ root.instances, (h.get? p).isSome) ∧
      ∀ l, Trees h root.instances l → ∃ cls n, BadOptionals (valuesOf (classmates l cls) n) := by
  have hl : ∀ h' : Heap ρ, ∀ r : Root ρ, (∀ p a, h'.get? p = some a → h.get? p = some a) → h'.length ≤ h.length → ∀ l,
      Trees h' r.instances l → l.length < 2 ^ 31 ∧
      ∀ x ∈ l, ∀ n t v, x.2.properties.get? n = some (.optional t (some v)) → v.type = t := by
    intro h' r hs hle l ht
    refine ⟨by have := Trees.length_le ht; omega, fun x hx => hw x.1 x.2 (hs _ _ (Forest.get? ht.1 x hx))⟩
  by_cases hp : ∃ p ∈ root.instances, (h.get? p).isSome
  · by_cases ht : ∃ l, Trees h root.instances l
    · obtain ⟨l, ht⟩ := ht
      obtain ⟨h1, h2⟩ := hl h root (fun _ _ h => h) (Nat.le_refl _) l ht
      rw [C19_panics_iff lz hlz u it srt hash place h root l ht h1 h2]
      refine ⟨fun hb => ⟨hp, fun l' ht' => ?_⟩, fun hb => hb.2 l ht⟩
      rw [forest_unique ht.1 ht'.1]; exact hb
    · refine ⟨fun _ => ⟨hp, fun l hl => absurd ⟨l, hl⟩ ht⟩, fun _ => ?_⟩
      unfold encodeRoot
      rcases hc : codecEncode it srt hash place h root with f | e | _
      · exact absurd (codecEncode_trees hc hp) ht
      · exact absurd hc (codecEncode_noErr it srt hash place h root e)
      · rfl
  · have hnone : ∀ p ∈ root.instances, h.get? p = none := fun p hm => by
      cases hg : h.get? p with
      | none => rfl
      | some a => exact absurd ⟨p, hm, by rw [hg]; rfl⟩ hp
    have ht : Trees h ({ root with instances := [] } : Root ρ).instances [] := ⟨.nil, by unfold Map.Ok; simp⟩
    have := C19_panics_iff lz hlz u it srt hash place h { root with instances := [] } [] ht (by simp) (by simp)
    refine ⟨fun e => ?_, fun e => absurd e.1 hp⟩
    unfold encodeRoot at e this
    rw [codecEncode_nil it srt hash place h root hnone] at e
    obtain ⟨cls, n, t, o, rest, hb, -⟩ := this.1 e
    simp [valuesOf, classmates] at hb

/-- C97: if all instances at the top are nil, the binary encoder writes the same file as if there were none. -/
theorem C97_binary_nil (lz : LZ4) (u : Bool) (it : Iter) (srt : Sorter) (hash : Bytes → Bytes) (place : Bool) (h : Heap ρ)
    (root : Root ρ) (hp : ∀ p ∈ root.instances, h.get? p = none) :
    encodeRoot lz u it srt hash place h root = encodeRoot lz u it srt hash place h { root with instances := [] } := by
  unfold encodeRoot
  rw [codecEncode_nil it srt hash place h root hp]

end binary

section xml
open Rbxlx

/-- C97: exactly which structures the XML encoder accepts: those that are finite. An instance may occur several times. -/
theorem C97_xml_returns_iff (P : Params) (L : Layout) (h : Heap ρ) (root : Root ρ) (hg : GoParams P)
    (hf : ∀ l, Forest h root.instances l → Fresh P.gen (demand l) P.attempts)
    (hrefs : ∀ p a, h.get? p = some a → ∀ n q, a.properties.get? n = some (.reference (some q)) → (h.get? q).isSome) :
    (∃ b h1, encode P L h root = .ok (b, h1)) ↔ ∃ l, Forest h root.instances l := by
  have hgen : ∀ k, isEmptyReference (P.gen k) = false := fun k => by
    obtain ⟨rand, h16, hr⟩ := hg.random; rw [hr]; exact genOf_nonempty rand k
  constructor
  · rintro ⟨b, h1, he⟩
    exact encode_finite hgen he
  · rintro ⟨l, hl⟩
    exact encode_total L hgen (hf l hl) hl fun x hx n q hq => hrefs x.1 x.2 (Rbxl.Forest.get? hl x hx) n q hq

/-- C97: an instance that occurs several times is written each time: the file has the layout of C96, `l` being the list of all
occurrences of instances. -/
theorem C97_xml_layout (P : Params) (L : Layout) (h : Heap ρ) (root : Root ρ) (l : Map ρ (Inst ρ)) (hg : GoParams P)
    (hl : Forest h root.instances l) (hprops : ∀ x ∈ l, x.2.properties.Ok)
    (hcdata : ∀ x ∈ l, ∀ n s, x.2.properties.get? n = some (.protectedString s) → ¬ str "]]>" <:+: s)
    (hpre : ∀ b ∈ L.pre, XmlSpace b) (hind : ∀ b ∈ L.indent, XmlSpace b) (hroot : L.excludeRoot = false)
    (hm : root.metadata.Ok) (b : Bytes) (h1 : Heap ρ) (hb : encode P L h root = .ok (b, h1)) :
    ∃ (doc : Tag) (metas externals items shared : List Tag), readFrom b = .ok (some doc, L.suffix) ∧
      XmlFile P.hash P.excludeReferent P.excludeExternal P.excludeMetadata root.metadata h1 root.instances l doc
        metas externals items shared :=
  encode_layout ⟨hg.floats ▸ goFloat_readable, hl, hprops, fun k => by
    obtain ⟨rand, h16, hr⟩ := hg.random; rw [hr]; exact genOf_nonempty rand k, hcdata, hpre, hind, hroot⟩ hm hb

end xml

/-- C97: exactly which structures can be converted to JSON: those that are finite. -/
theorem C97_json_returns_iff (rand : Nat → Bytes) (fuel : Nat) (it : Iter) (h : Heap Nat) (pos : Nat) (root : Root Nat)
    (hf : ∀ l, Forest h root.instances l → Fresh (genOf rand) (Rbxlx.demand l) fuel)
    (hrefs : ∀ p a, h.get? p = some a → ∀ n v, (n, v) ∈ a.properties → ∀ q, Mentions v q → (h.get? q).isSome) :
    (∃ j h1, Json.rootTo (genOf rand) fuel it h pos root = .ok (j, h1)) ↔ ∃ l, Forest h root.instances l := by
  constructor
  · rintro ⟨j, h1, he⟩
    exact Json.rootTo_finite (genOf_nonempty rand) he
  · rintro ⟨l, hl⟩
    exact Json.rootTo_total (genOf_nonempty rand) (hf l hl) hl fun x hx y hy =>
      hrefs x.1 x.2 (Rbxl.Forest.get? hl x hx) y.1 y.2 hy

/-- C97: exactly which structures `Root.Copy` can copy: those that are finite. Addresses from `next` on are free. -/
theorem C97_copy_returns_iff (rand : Nat → Bytes) (fuel : Nat) (it : Iter) (h : Heap Nat) (next pos : Nat) (root : Root Nat)
    (ok : HeapOk h) (hb : ∀ x, next ≤ x → h.get? x = none) (hr : ∀ p ∈ root.instances, p < next)
    (hc : ∀ p a, h.get? p = some a → ∀ c ∈ a.children, c < next)
    (hf : ∀ l, Forest h root.instances l → Fresh (genOf rand) (weight l) fuel) :
    (∃ root' h', rootCopy (genOf rand) fuel it h next pos root = .ok (root', h')) ↔ ∃ l, Forest h root.instances l := by
  constructor
  · rintro ⟨root', h', e⟩
    simp only [rootCopy] at e
    obtain ⟨⟨cs, s⟩, e1, -⟩ := Res.bind_eq_ok.1 e
    exact (copyList_finite (genOf_nonempty rand) hc _ _ _ _ _ hr (Back.refl h next) (Nat.le_refl _) e1).2.2
  · rintro ⟨l, hl⟩
    obtain ⟨cs, s, e, -⟩ := copyList_total (it := it) (hf l hl) (genOf_nonempty rand) ok hl (depth := h.length + 1) (anc := [])
      (by simp) (by simp) (by simp) (good_start (pos := pos) hb) hb (by simp [copyStart])
    simp only [rootCopy, e, Res.ok_bind]
    exact ⟨_, _, rfl⟩

/-- C97: the same for `Instance.Copy`. -/
theorem C97_instance_copy_returns_iff (rand : Nat → Bytes) (fuel : Nat) (it : Iter) (h : Heap Nat) (next pos p : Nat)
    (ok : HeapOk h) (hb : ∀ x, next ≤ x → h.get? x = none) (hr : p < next)
    (hc : ∀ p a, h.get? p = some a → ∀ c ∈ a.children, c < next)
    (hf : ∀ l, Forest h [p] l → Fresh (genOf rand) (weight l) fuel) :
    (∃ c h', instanceCopy (genOf rand) fuel it h next pos p = .ok (c, h')) ↔ ∃ l, Forest h [p] l := by
  constructor
  · rintro ⟨c, h', e⟩
    simp only [instanceCopy] at e
    obtain ⟨⟨c1, s⟩, e1, -⟩ := Res.bind_eq_ok.1 e
    exact (copyList_finite (genOf_nonempty rand) hc _ _ _ _ _ (by simpa using hr) (Back.refl h next) (Nat.le_refl _)
      (copyList_one e1)).2.2
  · rintro ⟨l, hl⟩
    obtain ⟨cs, s, e, -⟩ := copyList_total (it := it) (hf l hl) (genOf_nonempty rand) ok hl (depth := h.length + 1) (anc := [])
      (by simp) (by simp) (by simp) (good_start (pos := pos) hb) hb (by simp [copyStart])
    simp only [copyList] at e
    obtain ⟨⟨c, s'⟩, e1, -⟩ := Res.bind_eq_ok.1 e
    simp only [instanceCopy, e1, Res.ok_bind]
    exact ⟨_, _, rfl⟩

/-! ## Cases -/

/-- An instance with two children, one of which is also a child of the other. -/
def twiceHeap : Heap Nat :=
  [(0, { className := str "A", reference := str "a", children := [1, 2] }), (1, { className := str "B", reference := str "b", children := [2] }), (2, { className := str "C", reference := str "c" })]

/-- An instance that is below itself. -/
def cycleHeap : Heap Nat := [(0, { className := str "A", reference := str "a", children := [1] }), (1, { className := str "B", reference := str "b", children := [0] })]

/-- An instance with a child that is nil. -/
def nilHeap : Heap Nat := [(0, { className := str "A", reference := str "a", children := [1] })]

def twiceList : Map Nat (Inst Nat) :=
  [(0, { className := str "A", reference := str "a", children := [1, 2] }), (1, { className := str "B", reference := str "b", children := [2] }), (2, { className := str "C", reference := str "c" }),
   (2, { className := str "C", reference := str "c" })]

theorem twice_forest : Forest twiceHeap [0] twiceList :=
  .cons (below := [_, _, _]) (rest := []) rfl (.cons (below := [_]) (rest := [_]) rfl (.cons (below := []) (rest := []) rfl .nil .nil)
    (.cons (below := []) (rest := []) rfl .nil .nil)) .nil

theorem twice_no_trees : ¬ ∃ l, Trees twiceHeap [0] l := by
  rintro ⟨l, hl, hok⟩
  rw [forest_unique twice_forest hl] at hok
  revert hok
  unfold Map.Ok
  decide

theorem cycle_infinite : ¬ ∃ l, Forest cycleHeap [0] l := by
  rintro ⟨l, hl⟩
  generalize hn : l.length = n
  induction n using Nat.strongRecOn generalizing l with
  | _ n ih =>
    cases hl with
    | cons h1 f1 _ =>
      cases h1
      cases f1 with
      | cons h2 f2 _ =>
        cases h2
        exact ih _ (by rw [← hn]; simp; omega) _ f2 rfl

theorem nil_infinite : ¬ ∃ l, Forest nilHeap [0] l := by
  rintro ⟨l, hl⟩
  cases hl with
  | cons h1 f1 _ =>
    cases h1
    cases f1 with
    | cons h2 _ _ => cases h2

/-- C97: the binary encoder panics on each of them, whatever the options. -/
theorem C97_binary_examples (u : Bool) (it : Iter) (srt : Sorter) (hash : Bytes → Bytes) (place : Bool) :
    ∀ h ∈ [twiceHeap, cycleHeap, nilHeap], Rbxl.encodeRoot .stored u it srt hash place h { instances := [0] } = .panic := by
  have hno : ∀ h ∈ [twiceHeap, cycleHeap, nilHeap], ¬ ∃ l, Trees h [0] l := by
    intro h hm
    simp only [List.mem_cons, List.not_mem_nil, or_false] at hm
    rcases hm with rfl | rfl | rfl
    · exact twice_no_trees
    · exact fun ⟨l, hl⟩ => cycle_infinite ⟨l, hl.1⟩
    · exact fun ⟨l, hl⟩ => nil_infinite ⟨l, hl.1⟩
  have hprops : ∀ h ∈ [twiceHeap, cycleHeap, nilHeap], h.length < 2 ^ 31 ∧ (h.get? 0).isSome ∧ ∀ x ∈ h, x.2.properties = [] := by
    decide
  intro h hm
  obtain ⟨h1, h2, h3⟩ := hprops h hm
  refine (C97_binary_panics_iff .stored Rbxl.LZ4.stored_lossless u it srt hash place h _ h1 ?_).2 ⟨⟨0, by simp, h2⟩,
    fun l hl => absurd ⟨l, hl⟩ (hno h hm)⟩
  intro p a ha n t v hv
  rw [h3 _ (Map.mem_of_get? ha)] at hv
  cases hv

/-- The XML file of the first: the shared instance is written twice. -/
example : outlineOf (Rbxlx.encode exP {} twiceHeap { instances := [0] }) = some
    [(str "External", [], str "null"), (str "External", [], str "nil"),
     (str "Item", [str "A", str "a"], []), (str "Properties", [], []),
     (str "Item", [str "B", str "b"], []), (str "Properties", [], []),
     (str "Item", [str "C", str "c"], []), (str "Properties", [], []),
     (str "Item", [str "C", str "c"], []), (str "Properties", [], [])] := by decide +kernel

/-- The structure with a shared instance, and the loop, meet the hypotheses: the one is accepted, the other is not. -/
example : (∃ b h1, Rbxlx.encode exP {} twiceHeap { instances := [0] } = .ok (b, h1)) ∧
    ¬ ∃ b h1, Rbxlx.encode exP {} cycleHeap { instances := [0] } = .ok (b, h1) := by
  have hg : GoParams exP := ⟨rfl, counter, counter_length, rfl⟩
  constructor
  · refine (C97_xml_returns_iff exP {} twiceHeap _ hg ?_ ?_).2 ⟨_, twice_forest⟩
    · intro l hl
      rw [forest_unique twice_forest hl]
      exact Fresh_mono (counter_fresh 7 (by decide)) (by decide) (by decide)
    · intro p a ha n q hq
      rw [(by decide : ∀ x ∈ twiceHeap, x.2.properties = []) _ (Map.mem_of_get? ha)] at hq
      cases hq
  · refine fun h => cycle_infinite ((C97_xml_returns_iff exP {} cycleHeap _ hg ?_ ?_).1 h)
    · exact fun l hl => absurd ⟨l, hl⟩ cycle_infinite
    · intro p a ha n q hq
      rw [(by decide : ∀ x ∈ cycleHeap, x.2.properties = []) _ (Map.mem_of_get? ha)] at hq
      cases hq

/-- The same for JSON. -/
example : (∃ j h1, Json.rootTo (genOf counter) 8 Iter.id twiceHeap 0 { instances := [0] } = .ok (j, h1)) ∧
    ¬ ∃ j h1, Json.rootTo (genOf counter) 8 Iter.id nilHeap 0 { instances := [0] } = .ok (j, h1) := by
  constructor
  · refine (C97_json_returns_iff counter 8 Iter.id twiceHeap 0 _ ?_ ?_).2 ⟨_, twice_forest⟩
    · intro l hl
      rw [forest_unique twice_forest hl]
      exact Fresh_mono (counter_fresh 7 (by decide)) (by decide) (by decide)
    · intro p a ha n v hv
      rw [(by decide : ∀ x ∈ twiceHeap, x.2.properties = []) _ (Map.mem_of_get? ha)] at hv
      cases hv
  · refine fun h => nil_infinite ((C97_json_returns_iff counter 8 Iter.id nilHeap 0 _ ?_ ?_).1 h)
    · exact fun l hl => absurd ⟨l, hl⟩ nil_infinite
    · intro p a ha n v hv
      rw [(by decide : ∀ x ∈ nilHeap, x.2.properties = []) _ (Map.mem_of_get? ha)] at hv
      cases hv

/-- `Root.Copy` turns the shared instance into two instances, so that the copy is a tree. -/
example : ∃ h' : Heap Nat, rootCopy (genOf counter) 8 Iter.id twiceHeap 3 0 { instances := [0] } = .ok ({ instances := [3] }, h') ∧
    (h'.get? 3).map (fun a => a.children) = some [4, 6] ∧ (h'.get? 4).map (fun a => a.children) = some [5] ∧
    (h'.get? 5).map (fun a => a.className) = some (str "C") ∧ (h'.get? 6).map (fun a => a.className) = some (str "C") := by
  refine ⟨_, rfl, ?_⟩
  decide

/-- The hypotheses of the theorem about `Root.Copy`. -/
example : ∃ root' h', rootCopy (genOf counter) 8 Iter.rev twiceHeap 3 0 { instances := [0] } = .ok (root', h') := by
  refine (C97_copy_returns_iff counter 8 Iter.rev twiceHeap 3 0 { instances := [0] } ?_ ?_ (by decide) ?_ ?_).2 ⟨_, twice_forest⟩
  · constructor
    · intro p a name q ha hm
      rw [(by decide : ∀ x ∈ twiceHeap, x.2.properties = []) _ (Map.mem_of_get? ha)] at hm
      cases hm
    · intro p a ha
      rw [(by decide : ∀ x ∈ twiceHeap, x.2.properties = []) _ (Map.mem_of_get? ha)]
      exact Map.ok_nil
  · intro x hx
    refine Map.get?_eq_none.2 fun hm => ?_
    simp only [twiceHeap, List.map_cons, List.map_nil, List.mem_cons, List.not_mem_nil, or_false] at hm
    omega
  · intro p a ha
    exact (by decide : ∀ x ∈ twiceHeap, ∀ c ∈ x.2.children, c < 3) _ (Map.mem_of_get? ha)
  · intro l hl
    rw [forest_unique twice_forest hl]
    exact Fresh_mono (counter_fresh 7 (by decide)) (by decide) (by decide)

end Props

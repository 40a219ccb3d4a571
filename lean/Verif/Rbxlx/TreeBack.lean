import Verif.Rbxlx.TreeDec
/-!
# A tree is encoded and decoded
-/
namespace Rbxlx
open Go Rbxfile Spec

variable {ρ : Type} [DecidableEq ρ]

/-! ## Updates of properties -/

/-- Assignments to properties: the instance, the property and the value. -/
abbrev Ops := List (Nat × Bytes × Value Nat)

/-- The assignments are made. -/
def applyOps (h : Heap Nat) (ops : Ops) : Heap Nat :=
  ops.foldl (fun h o => setProperty h ⟨some o.1, o.2.1, []⟩ o.2.2) h

theorem applyOps_append (h : Heap Nat) (a b : Ops) : applyOps h (a ++ b) = applyOps (applyOps h a) b := by
  simp [applyOps]

/-- Instances that differ in properties only. -/
structure SameButProps (i j : Inst Nat) : Prop where
  cls : j.className = i.className
  ref : j.reference = i.reference
  svc : j.isService = i.isService
  kids : j.children = i.children

theorem setProperty_get (h : Heap Nat) (p : Nat) (n : Bytes) (v : Value Nat) (q : Nat) {i : Inst Nat}
    (hi : h.get? q = some i) : ∃ j, (setProperty h ⟨some p, n, []⟩ v).get? q = some j ∧ SameButProps i j ∧
    ∀ m, j.properties.get? m = if q = p ∧ m = n then some v else i.properties.get? m := by
  unfold setProperty
  simp only
  cases hp : h.get? p with
  | none =>
    have : q ≠ p := by rintro rfl; rw [hi] at hp; cases hp
    exact ⟨i, hi, ⟨rfl, rfl, rfl, rfl⟩, fun m => by simp [this]⟩
  | some i' =>
    simp only
    by_cases hq : q = p
    · subst hq
      rw [hi] at hp; cases hp
      refine ⟨_, Map.get?_set_self _ _ _, ⟨rfl, rfl, rfl, rfl⟩, fun m => ?_⟩
      simp only [Map.get?_set, true_and]
    · refine ⟨i, by rw [Map.get?_set_ne _ _ hq]; exact hi, ⟨rfl, rfl, rfl, rfl⟩, fun m => by simp [hq]⟩

theorem setProperty_keys (h : Heap Nat) (r : PropRef Nat) (v : Value Nat) (q : Nat) :
    ((setProperty h r v).get? q).isSome = (h.get? q).isSome := by
  unfold setProperty
  split
  · rfl
  · split
    · rfl
    · rename_i p _ i hi
      rw [Map.get?_set]
      split
      · rename_i e; rw [e, hi]; rfl
      · rfl

theorem applyOps_keys : ∀ (ops : Ops) (h : Heap Nat) (q : Nat),
    ((applyOps h ops).get? q).isSome = (h.get? q).isSome
  | [], h, q => rfl
  | o :: ops, h, q => by
    show ((applyOps (setProperty h ⟨some o.1, o.2.1, []⟩ o.2.2) ops).get? q).isSome = _
    rw [applyOps_keys ops, setProperty_keys]

theorem applyOps_get : ∀ (ops : Ops) (h : Heap Nat) (q : Nat) {i : Inst Nat}, h.get? q = some i →
    ∃ j, (applyOps h ops).get? q = some j ∧ SameButProps i j ∧
    ∀ m, ((∀ v, (q, m, v) ∉ ops) → j.properties.get? m = i.properties.get? m) ∧
      ∀ v, (q, m, v) ∈ ops → (∀ w, (q, m, w) ∈ ops → w = v) → j.properties.get? m = some v
  | [], h, q, i, hi => ⟨i, hi, ⟨rfl, rfl, rfl, rfl⟩, fun m => ⟨fun _ => rfl, fun v hv => by cases hv⟩⟩
  | (p, n, w) :: ops, h, q, i, hi => by
    obtain ⟨i1, h1, s1, g1⟩ := setProperty_get h p n w q hi
    obtain ⟨j, h2, s2, g2⟩ := applyOps_get ops _ q h1
    refine ⟨j, h2, ⟨s2.cls.trans s1.cls, s2.ref.trans s1.ref, s2.svc.trans s1.svc, s2.kids.trans s1.kids⟩, ?_⟩
    intro m
    refine ⟨fun hno => ?_, fun v hv hall => ?_⟩
    · rw [(g2 m).1 (fun v hv => hno v (by simp [hv])), g1, if_neg]
      rintro ⟨rfl, rfl⟩
      exact hno w (by simp)
    · by_cases hex : ∃ u, (q, m, u) ∈ ops
      · obtain ⟨u, hu⟩ := hex
        have : u = v := hall u (by simp [hu])
        subst this
        exact (g2 m).2 u hu fun w hw => hall w (by simp [hw])
      · rw [(g2 m).1 (fun u hu => hex ⟨u, hu⟩), g1]
        rcases List.mem_cons.1 hv with e | hv
        · cases e
          simp
        · exact absurd ⟨v, hv⟩ hex

/-! ## Shared strings -/

/-- The assignments of a shared string. -/
def sharedOps (refs : List (PropRef Nat)) (x : Bytes × Bytes) : Ops :=
  refs.filterMap fun r => if r.reference = x.1 then r.inst.map fun p => (p, r.property, .sharedString x.2) else none

theorem assignShared_eq (key value : Bytes) : ∀ (refs : List (PropRef Nat)) (h : Heap Nat),
    assignShared refs key value h = applyOps h (sharedOps refs (key, value))
  | [], h => rfl
  | r :: refs, h => by
    have ih := assignShared_eq key value refs
    show assignShared refs key value _ = _
    rw [ih]
    unfold sharedOps
    rw [List.filterMap_cons]
    by_cases hk : r.reference = key
    · simp only [hk, if_true]
      obtain ⟨inst, prop, ref⟩ := r
      cases inst with
      | none => simp [setProperty]
      | some p => simp [applyOps, setProperty]
    · simp only [hk, if_false]

/-- The tag of a shared string. -/
def sharedTagOf (x : Bytes × Bytes) : Tag :=
  ⟨{ startName := str "SharedString", attr := [(str "md5", b64Encode x.1)], text := b64Wrap x.2 }, []⟩

theorem wrap_no_cr (s : Bytes) : 13#8 ∉ b64Wrap s := by
  rw [b64Wrap_eq]
  intro h
  rcases wrapAt_bytes _ _ _ _ h with h | h
  · revert h; decide
  · have := b64Encode_bytes s _ h
    revert this; decide

theorem encode_no_cr (s : Bytes) : 13#8 ∉ b64Encode s := by
  intro h
  have := b64Encode_bytes s _ h
  revert this; decide

theorem b64Decode_encode (s : Bytes) : b64Decode (b64Encode s) = some s := by
  refine b64Decode_lines ?_
  rw [List.filter_eq_self]
  intro c hc
  have := b64Encode_bytes s c hc
  simp only [decide_eq_true_eq]
  rintro rfl
  exact b64Encode_no_lf s hc

theorem sharedTag_back (refs : List (PropRef Nat)) (x : Bytes × Bytes) (h : Heap Nat) :
    TidyTag (sharedTagOf x) ∧ sharedTag refs h (rereadOf (sharedTagOf x)) = applyOps h (sharedOps refs x) := by
  have c1 : checkName .attr (str "md5") = true := by decide
  have n1 : FirstNot [47#8] (str "md5") := by
    intro c t h
    rw [show str "md5" = [109#8, 100#8, 53#8] by decide] at h; cases h; decide
  have ho : okName (str "SharedString") = true := by decide
  refine ⟨⟨⟨rfl, rfl, (okName_spec ho).1, (okName_spec ho).2, by simpa using ⟨c1, n1⟩, by simp⟩, trivial⟩, ?_⟩
  have hs : (rereadOf (sharedTagOf x)).head.startName = str "SharedString" := by rw [start_reread]; rfl
  have ha : attrValue (rereadOf (sharedTagOf x)).head.attr (str "md5") = some (b64Encode x.1) := by
    show attrValue (attrsBack [(str "md5", b64Encode x.1)]) (str "md5") = _
    rw [attrsBack_tidy (by simp [c1])]
    simp [attrValue, normNewlines_of_no_cr (encode_no_cr x.1)]
  have hc : getContent (rereadOf (sharedTagOf x)) = b64Wrap x.2 := by
    unfold sharedTagOf
    rw [content_text _ _ rfl, Props.normText_of_no_cr (wrap_no_cr x.2)]
  unfold sharedTag
  simp only [hs, ha, hc, b64Decode_encode, b64Decode_wrap, assignShared_eq, ne_eq, not_true_eq_false, if_false]

/-- The list of shared strings as it is written. -/
def sharedList (P : Params) (shared : Map Bytes Bytes) : List (Bytes × Bytes) :=
  (P.srt.run bytesLt (P.it.run [2] shared.keys)).map fun k => (k, (shared.get? k).getD [])

theorem mem_sharedList (P : Params) {shared : Map Bytes Bytes} (x : Bytes × Bytes) :
    x ∈ sharedList P shared ↔ shared.get? x.1 = some x.2 := by
  unfold sharedList
  rw [List.mem_map]
  have hm : ∀ k, k ∈ P.srt.run bytesLt (P.it.run [2] shared.keys) ↔ k ∈ shared.map Prod.fst := fun k =>
    (P.srt.perm _ _).mem_iff.trans (P.it.perm _ _).mem_iff
  constructor
  · rintro ⟨k, hk, rfl⟩
    obtain ⟨v, hv⟩ := Option.isSome_iff_exists.1 (Map.get?_isSome.2 ((hm k).1 hk))
    simp [hv]
  · intro h
    refine ⟨x.1, (hm x.1).2 (Map.get?_isSome.1 (by rw [h]; rfl)), ?_⟩
    simp [h]

theorem sharedTags_eq (P : Params) (shared : Map Bytes Bytes) : sharedTags P shared =
    if shared = [] then [] else [node (str "SharedStrings") ((sharedList P shared).map sharedTagOf)] := by
  unfold sharedTags sharedList
  rw [List.map_map]
  rfl

theorem sharedFold (refs : List (PropRef Nat)) : ∀ (xs : List (Bytes × Bytes)) (h : Heap Nat),
    (reread (xs.map sharedTagOf)).foldl (sharedTag refs) h = applyOps h (xs.flatMap (sharedOps refs))
  | [], h => rfl
  | x :: xs, h => by
    simp only [List.map_cons, reread, List.foldl_cons, (sharedTag_back refs x h).2, List.flatMap_cons,
      applyOps_append, sharedFold refs xs]

/-! ## Metadata -/

/-- The tag of an entry of the metadata. -/
def metaTagOf (x : Bytes × Bytes) : Tag := ⟨{ startName := str "Meta", attr := [(str "name", x.1)], text := x.2 }, []⟩

theorem metaTag_back (x : Bytes × Bytes) : TidyTag (metaTagOf x) ∧
    (rereadOf (metaTagOf x)).head.startName = str "Meta" ∧
    attrValue (rereadOf (metaTagOf x)).head.attr (str "name") = some (normNewlines x.1) ∧
    (rereadOf (metaTagOf x)).head.text = normText x.2 := by
  have ho : okName (str "Meta") = true := by decide
  refine ⟨⟨⟨rfl, rfl, (okName_spec ho).1, (okName_spec ho).2, tidy_name x.1, by simp⟩, trivial⟩, rfl, ?_, ?_⟩
  · show attrValue (attrsBack [(str "name", x.1)]) (str "name") = _
    rw [attrsBack_tidy fun a ha => (tidy_name x.1 a ha).1]
    simp [attrValue]
  · show textBack true false x.2 = _
    rw [textBack_lead]

/-! ## The tags of the root -/

theorem rootTags_append (refs : List (PropRef Nat)) : ∀ (a b : List Tag) (m : Map Bytes Bytes) (h : Heap Nat),
    rootTags refs (a ++ b) m h = rootTags refs b (rootTags refs a m h).1 (rootTags refs a m h).2
  | [], b, m, h => rfl
  | t :: a, b, m, h => by
    simp only [List.cons_append, rootTags]
    split
    · split
      · exact rootTags_append refs a b m h
      · exact rootTags_append refs a b _ h
    · split
      · exact rootTags_append refs a b m _
      · exact rootTags_append refs a b m h

theorem rootTags_skip (refs : List (PropRef Nat)) : ∀ (a : List Tag) (m : Map Bytes Bytes) (h : Heap Nat),
    (∀ t ∈ a, t.head.startName ≠ str "Meta" ∧ t.head.startName ≠ str "SharedStrings") → rootTags refs a m h = (m, h)
  | [], m, h, _ => rfl
  | t :: a, m, h, ht => by
    obtain ⟨h1, h2⟩ := ht t (by simp)
    simp only [rootTags, h1, h2, if_false]
    exact rootTags_skip refs a m h fun t ht' => ht t (by simp [ht'])

theorem rootTags_meta (refs : List (PropRef Nat)) : ∀ (xs : List (Bytes × Bytes)) (m : Map Bytes Bytes) (h : Heap Nat),
    rootTags refs (reread (xs.map metaTagOf)) m h =
      (xs.foldl (fun m x => m.set (normNewlines x.1) (normText x.2)) m, h)
  | [], m, h => rfl
  | x :: xs, m, h => by
    obtain ⟨-, h1, h2, h3⟩ := metaTag_back x
    simp only [List.map_cons, reread, rootTags, h1, if_true, h2, h3, List.foldl_cons]
    exact rootTags_meta refs xs _ h

theorem getItems_skip (F : FloatText) (d : Bool) (parent : Option Nat) (hasProps : Bool)
    (props : Map Bytes (Value Nat)) (st : DecState) : ∀ (a b : List Tag),
    (∀ t ∈ a, t.head.startName ≠ str "Item" ∧ t.head.startName ≠ str "Properties") →
    getItems F d (a ++ b) parent hasProps props st = getItems F d b parent hasProps props st
  | [], b, _ => rfl
  | t :: a, b, ht => by
    obtain ⟨h1, h2⟩ := ht t (by simp)
    obtain ⟨hd, ts⟩ := t
    simp only [Tag.head_mk] at h1 h2
    have hi : getItem F d ⟨hd, ts⟩ parent hasProps props st = .ok ([], hasProps, props, st) := by
      unfold getItem
      simp only [h1, h2, if_false]
    rw [List.cons_append, getItems, hi]
    simp only
    rw [getItems_skip F d parent hasProps props st a b fun t ht' => ht t (by simp [ht'])]
    cases getItems F d b parent hasProps props st with
    | panic => rfl
    | err e => rfl
    | ok x => obtain ⟨a, b, c⟩ := x; rfl

theorem metaFold_from : ∀ (xs : List (Bytes × Bytes)) (m : Map Bytes Bytes),
    (∀ k v, m.get? k = some v → ∃ x : Bytes × Bytes, k = normNewlines x.1 ∧ v = normText x.2) → ∀ {k v},
    (xs.foldl (fun m x => m.set (normNewlines x.1) (normText x.2)) m).get? k = some v →
      ∃ x : Bytes × Bytes, k = normNewlines x.1 ∧ v = normText x.2
  | [], m, hm, k, v, h => hm k v h
  | x :: xs, m, hm, k, v, h => by
    refine metaFold_from xs (m.set (normNewlines x.1) (normText x.2)) (fun k v hk => ?_) h
    rw [Map.get?_set] at hk
    split at hk
    · rename_i e
      cases hk
      exact ⟨x, e, rfl⟩
    · exact hm k v hk

theorem metaFold_get (xs : List (Bytes × Bytes)) (hcr : ∀ x ∈ xs, 13#8 ∉ x.1) : ∀ (m : Map Bytes Bytes),
    (xs.map Prod.fst).Nodup → (∀ x ∈ xs, m.get? x.1 = none) → ∀ k,
    (xs.foldl (fun m x => m.set (normNewlines x.1) (normText x.2)) m).get? k =
      ((Map.get? xs k).map normText).or (m.get? k) := by
  induction xs with
  | nil => intro m _ _ k; simp
  | cons x xs ih =>
    intro m hnd hm k
    obtain ⟨kx, vx⟩ := x
    have hcx : normNewlines kx = kx := normNewlines_of_no_cr (hcr (kx, vx) (by simp))
    simp only [List.map_cons, List.nodup_cons] at hnd
    rw [List.foldl_cons, ih (fun x hx => hcr x (by simp [hx])) _ hnd.2]
    · simp only [hcx, Map.get?_set, Map.get?]
      by_cases hk : kx = k
      · subst hk
        rw [Map.get?_eq_none.2 hnd.1]
        simp
      · have hk' : ¬ k = kx := fun e => hk e.symm
        simp [hk, hk']
    · intro y hy
      simp only [hcx]
      rw [Map.get?_set_ne]
      · exact hm y (by simp [hy])
      · rintro rfl
        exact hnd.1 (List.mem_map.2 ⟨y, hy, rfl⟩)

end Rbxlx

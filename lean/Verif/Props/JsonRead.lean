import Verif.Json.ReadMain
import Verif.Props.NotTree
/-!
# C98: a root that is read from JSON

`l` is the list of instances in the JSON, `l.filter describes` its elements that describe an instance.
-/
namespace Props
open Go Rbxfile Spec Json

section
variable {O : Overflow} {it : Iter} {j : JVal} {h : Heap Nat} {root : Root Nat} {l : List JVal}

/-- C98: what is read, if all references differ: each description yields an instance of its own at the top, with the class name, the
reference, the flag and exactly the properties that are described, and without children. `target r` is the instance with the
reference `r`: the one that is described with it, if there is one. No other instance is more than blank. -/
theorem C98_read (hr : rootFrom O it j = .ok (some (h, root))) (hl : index j (str "instances") = some (.arr l))
    (hd : DescribedApart (l.filter describes))
    (hok : ∀ d ∈ l, ∀ ps, index d (str "properties") = some (.obj ps) → Map.Ok ps) :
    root.metadata = [] ∧ root.instances.Nodup ∧
    ∃ target : Bytes → Option Nat,
      (∀ r p, target r = some p ↔ r ≠ [] ∧ ∃ a, h.get? p = some a ∧ a.reference = r) ∧
      List.Forall₂ (fun d p => ∃ a, h.get? p = some a ∧
        ReadInstance O target d a) (l.filter describes) root.instances ∧
      ∀ p a, h.get? p = some a → p ∉ root.instances → a = { className := [], reference := a.reference } := by
  obtain ⟨ps, s, hs, rfl, rfl⟩ := rootFrom_list hl hr
  have hnd := (listed_nodup l RInv.start hs).2 hd
  refine ⟨rfl, hnd, fun r => s.refs.at r, final_target hs, ?_, fun p a ha hp => (final_made hs ha).1.unlisted hp⟩
  have hf := listed_read l RInv.start hs hnd (fun _ _ => by simp)
  have hok' : ∀ d ∈ l.filter describes, ∀ ps, index d (str "properties") = some (.obj ps) → Map.Ok ps :=
    fun d hd => hok d (List.mem_filter.1 hd).1
  show List.Forall₂ _ (l.filter describes) ps
  refine List.forall₂_iff_get.2 ⟨hf.length_eq, fun k h1 h2 => ?_⟩
  exact final_read hs (hok' _ (List.get_mem _ _)) ((List.forall₂_iff_get.1 hf).2 k h1 h2)

/-- C98: whatever is read is finite and has no nil instance; no instance has children; properties have distinct names, and a reference
leads to an instance. -/
theorem C98_finite (hr : rootFrom O it j = .ok (some (h, root))) :
    (∃ lst, Forest h root.instances lst ∧ lst.map Prod.fst = root.instances) ∧
    ∀ p a, h.get? p = some a → a.children = [] ∧ a.properties.Ok ∧
      ∀ n q, a.properties.get? n = some (.reference (some q)) → (h.get? q).isSome := by
  obtain ⟨l, hl⟩ := rootFrom_instances hr
  obtain ⟨ps, s, hs, rfl, rfl⟩ := rootFrom_list hl hr
  refine ⟨flat_forest ps fun p hp => ?_, fun p a ha => ?_⟩
  · have hf := final_listed hs
    obtain ⟨k, hk, rfl⟩ := List.getElem_of_mem hp
    obtain ⟨a, ha, -⟩ := (List.forall₂_iff_get.1 hf).2 k (by rw [hf.length_eq]; exact hk) hk
    simp only [List.get_eq_getElem] at ha
    exact ⟨a, ha, (final_made hs ha).1.children⟩
  · have := (final_made hs ha).1
    exact ⟨this.children, this.properties, this.refs⟩

/-- C98: what is read is a list of trees just if all references differ. -/
theorem C98_trees_iff (hr : rootFrom O it j = .ok (some (h, root))) (hl : index j (str "instances") = some (.arr l)) :
    (∃ lst, Trees h root.instances lst) ↔ DescribedApart (l.filter describes) := by
  obtain ⟨⟨lst, hf, hk⟩, -⟩ := C98_finite hr
  obtain ⟨ps, s, hs, rfl, rfl⟩ := rootFrom_list hl hr
  rw [← listed_nodup l RInv.start hs]
  constructor
  · rintro ⟨lst', ht⟩
    rw [forest_unique hf ht.1] at ht
    have : (lst.map Prod.fst).Nodup := ht.2
    rw [hk] at this
    exact this
  · intro hnd
    refine ⟨lst, hf, ?_⟩
    show (lst.map Prod.fst).Nodup
    rw [hk]
    exact hnd

/-- C98: a root read from JSON can always be written as XML. -/
theorem C98_xml (hr : rootFrom O it j = .ok (some (h, root))) (P : Rbxlx.Params) (L : Rbxlx.Layout) (hg : GoParams P)
    (hf : ∀ lst, Forest h root.instances lst → Fresh P.gen (Rbxlx.demand lst) P.attempts) :
    ∃ b h1, Rbxlx.encode P L h root = .ok (b, h1) := by
  obtain ⟨⟨lst, hl, -⟩, h2⟩ := C98_finite hr
  exact (C97_xml_returns_iff P L h root hg hf fun p a ha n q hq => (h2 p a ha).2.2 n q hq).2 ⟨lst, hl⟩

/-- C98: exactly when the binary encoder panics on a root read from JSON: two objects that describe instances have the same
reference, or there are `BadOptionals` as in C19. -/
theorem C98_binary_panics_iff (hr : rootFrom O it j = .ok (some (h, root))) (hl : index j (str "instances") = some (.arr l))
    (lz : Rbxl.LZ4) (hlz : lz.Lossless) (u : Bool) (it' : Iter) (srt : Sorter) (hash : Bytes → Bytes) (place : Bool)
    (hn : h.length < 2 ^ 31) :
    Rbxl.encodeRoot lz u it' srt hash place h root = .panic ↔
      ¬ DescribedApart (l.filter describes) ∨
      ∃ lst, Trees h root.instances lst ∧ ∃ cls n, BadOptionals (valuesOf (classmates lst cls) n) := by
  have htyped : ∀ p a, h.get? p = some a → ∀ n t v, a.properties.get? n = some (.optional t (some v)) → v.type = t := by
    obtain ⟨ps, s, hs, rfl, rfl⟩ := rootFrom_list hl hr
    exact fun p a ha => (final_made hs ha).1.typed
  have hex : ∀ p ∈ root.instances, (h.get? p).isSome := by
    obtain ⟨⟨lst, hf, -⟩, -⟩ := C98_finite hr
    intro p hp
    obtain ⟨x, hx, rfl⟩ := List.mem_map.1 (Rbxl.Forest.roots_mem hf p hp)
    rw [Rbxl.Forest.get? hf x hx]
    rfl
  have ht := C98_trees_iff hr hl
  rw [C97_binary_panics_iff lz hlz u it' srt hash place h root hn htyped]
  by_cases hd : DescribedApart (l.filter describes)
  · obtain ⟨lst, hlst⟩ := ht.2 hd
    constructor
    · rintro ⟨-, hb⟩
      exact .inr ⟨lst, hlst, hb lst hlst⟩
    · rintro (hno | ⟨lst', hlst', cls, n, hb⟩)
      · exact absurd hd hno
      · refine ⟨?_, fun l2 h2 => ?_⟩
        · cases hi : root.instances with
          | nil =>
            rw [hi] at hlst'
            cases hlst'.1
            obtain ⟨t, o, rest, e, -⟩ := hb
            simp [classmates, valuesOf] at e
          | cons p ps => exact ⟨p, by simp, hex p (by simp [hi])⟩
        · rw [forest_unique hlst'.1 h2.1]
          exact ⟨cls, n, hb⟩
  · refine iff_of_true ⟨?_, fun l2 h2 => absurd (ht.1 ⟨l2, h2⟩) hd⟩ (.inl hd)
    cases hi : root.instances with
    | nil => exact absurd (ht.1 ⟨[], by rw [hi]; exact ⟨.nil, Map.ok_nil⟩⟩) hd
    | cons p ps => exact ⟨p, by simp, hex p (by simp [hi])⟩
end

/-- A list of objects: two instances that refer to each other and to an instance that is not described, and an object without a class
name. -/
def readList : List JVal :=
  [.obj [(str "class_name", .str (str "Part")), (str "reference", .str (str "A")), (str "is_service", .bool true),
     (str "properties", .obj [(str "Next", .obj [(str "type", .str (str "Reference")), (str "value", .str (str "B"))]),
       (str "Name", .obj [(str "type", .str (str "String")), (str "value", .str (str "x"))]),
       (str "Bad", .obj [(str "type", .str (str "Reference")), (str "value", .bool true)])])],
   .obj [(str "reference", .str (str "C"))],
   .obj [(str "class_name", .str (str "Part")), (str "reference", .str (str "B")),
     (str "properties", .obj [(str "Next", .obj [(str "type", .str (str "Reference")), (str "value", .str (str "C"))]),
       (str "Maybe", .obj [(str "type", .str (str "Optional")),
         (str "value", .obj [(str "type", .str (str "Bool")), (str "value", .bool true)])])])]]

/-- The root with a list of objects. -/
def readRoot (l : List JVal) : JVal := .obj [(str "rbxfile_version", .num 0#64), (str "instances", .arr l)]

theorem rootFrom_readRoot (O : Overflow) (it : Iter) (l : List JVal) {ps : List Nat} {s : JState}
    (h : listFrom O it l {} = .ok (ps, s)) {hp : Heap Nat} (he : setRefs s.refs s.propRefs s.heap = hp) :
    rootFrom O it (readRoot l) = .ok (some (hp, { instances := ps })) := by
  subst he
  have a : index (readRoot l) (str "rbxfile_version") = some (.num 0#64) := rfl
  have b : index (readRoot l) (str "instances") = some (.arr l) := rfl
  have e : intToF64 (0#64).toInt = 0#64 := by decide +kernel
  have c : f64ToInt O 64 0#64 = 0#64 := by
    have := f64ToInt_back O (by decide : 0 < 64) 0#64 (by decide) ⟨0, 0, by decide, by decide⟩
    rw [e] at this
    exact this
  rw [rootFrom, a]
  simp only [c, if_true, b, h]
  rfl

set_option maxRecDepth 20000 in
/-- The hypotheses of C98 hold of this root, and what is read. -/
example (O : Overflow) : rootFrom O .id (readRoot readList) = .ok (some
      ([(0, { className := str "Part", reference := str "A", isService := true,
              properties := [(str "Name", .string (str "x")), (str "Next", .reference (some 2))] }),
        (1, { className := [], reference := str "C" }),
        (2, { className := str "Part", reference := str "B",
              properties := [(str "Maybe", .optional .bool (some (.bool true))), (str "Next", .reference (some 1))] })],
       { instances := [0, 2] })) ∧
    index (readRoot readList) (str "instances") = some (.arr readList) ∧ DescribedApart (readList.filter describes) := by
  refine ⟨rootFrom_readRoot O .id readList rfl rfl, rfl, ?_⟩
  unfold DescribedApart
  have : readList.filter describes = [readList[0], readList[2]] := rfl
  rw [this]
  refine .cons ?_ (.cons nofun .nil)
  intro b hb
  simp only [List.mem_singleton] at hb
  subst hb
  intro _
  decide +kernel

/-- Two objects with the same reference. -/
def sameReference : List JVal :=
  [.obj [(str "class_name", .str (str "Part")), (str "reference", .str (str "A")), (str "is_service", .bool true)],
   .obj [(str "class_name", .str (str "Model")), (str "reference", .str (str "A"))]]

/-- C98, a defect: two objects with the same reference yield one instance, with the class of the second and the flag of the first; it
is listed twice, and the binary encoder panics. -/
theorem C98_read_fails (O : Overflow) (lz : Rbxl.LZ4) (hlz : lz.Lossless) :
    ∃ h root, rootFrom O .id (readRoot sameReference) = .ok (some (h, root)) ∧ root.instances = [0, 0] ∧
      h.get? 0 = some { className := str "Model", reference := str "A", isService := true } ∧
      ∀ u it srt hash place, Rbxl.encodeRoot lz u it srt hash place h root = .panic := by
  have hr : rootFrom O .id (readRoot sameReference) = .ok (some
      ([(0, { className := str "Model", reference := str "A", isService := true })], { instances := [0, 0] })) := rootFrom_readRoot O .id _ rfl rfl
  refine ⟨_, _, hr, rfl, rfl, fun u it srt hash place => ?_⟩
  refine (C98_binary_panics_iff hr (l := sameReference) rfl lz hlz u it srt hash place (by decide)).2 (.inl ?_)
  intro hd
  have e : sameReference.filter describes = sameReference := rfl
  rw [e] at hd
  exact (List.pairwise_cons.1 hd).1 sameReference[1] (by simp [sameReference]) (by decide +kernel) rfl

/-- C98: an Optional that is read can make the binary encoder panic. -/
theorem C98_optional_fails (O : Overflow) (lz : Rbxl.LZ4) (hlz : lz.Lossless) :
    ∃ v, ∃ h root, rootFrom O .id (readRoot [.obj [(str "class_name", .str (str "Part")),
        (str "properties", .obj [(str "P", .obj [(str "type", .str (str "Optional")), (str "value", v)])])]]) =
        .ok (some (h, root)) ∧
      ∀ u it srt hash place, Rbxl.encodeRoot lz u it srt hash place h root = .panic := by
  have hr : rootFrom O .id (readRoot [.obj [(str "class_name", .str (str "Part")),
        (str "properties", .obj [(str "P", .obj [(str "type", .str (str "Optional")),
          (str "value", .obj [(str "type", .str (str "?"))])])])]]) = .ok (some
      ([(0, { className := str "Part", properties := [(str "P", .optional .invalid none)] })], { instances := [0] })) := rootFrom_readRoot O .id _ rfl rfl
  refine ⟨_, _, _, hr, fun u it srt hash place => ?_⟩
  refine (C98_binary_panics_iff hr rfl lz hlz u it srt hash place (by decide)).2 (.inr ?_)
  refine ⟨[(0, { className := str "Part", properties := [(str "P", .optional .invalid none)] })],
    ⟨.cons (below := []) rfl .nil .nil, by unfold Map.Ok; decide⟩, str "Part", str "P", .invalid, none, [], ?_, .inl rfl⟩
  decide +kernel

end Props

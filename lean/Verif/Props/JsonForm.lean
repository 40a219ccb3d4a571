import Verif.Props.Json
/-!
# C100: the JSON form of instances and values
-/
namespace Props
open Go Rbxfile Spec Json

/-- C100: what is written for a root: an object with the version 0 and the forms of the instances with all that is below them
(`JsonForm.Instances`). The structure afterwards, `h1`, differs from the one before, `h`, only in references; the references of
the instances that are written, which are listed by `l`, are not empty and differ from each other. -/
theorem C100_written (rand : Nat → Bytes) (fuel : Nat) (it : Iter) {h h1 : Heap Nat} (pos : Nat) {root : Root Nat} {j : JVal}
    (he : rootTo (genOf rand) fuel it h pos root = .ok (j, h1)) :
    ∃ js l, j = JsonForm.object [("rbxfile_version", JsonForm.whole 0), ("instances", .arr js)] ∧
      JsonForm.Instances h1 root.instances js ∧
      (∀ p inst, h.get? p = some inst → ∃ r, h1.get? p = some { inst with reference := r }) ∧
      (∀ p inst, h1.get? p = some inst → ∃ r, h.get? p = some { inst with reference := r }) ∧
      Forest h root.instances l ∧
      ∀ p ∈ l.map Prod.fst, isEmptyReference (JsonForm.reference h1 p) = false ∧
        ∀ q ∈ l.map Prod.fst, JsonForm.reference h1 p = JsonForm.reference h1 q → p = q :=
  rootTo_form (genOf_nonempty rand) he

/-- C100: if all instances have references, which differ, writing alters nothing. -/
theorem C100_unaltered (rand : Nat → Bytes) (fuel : Nat) (it : Iter) {h h1 : Heap Nat} (hd : JsonForm.Distinct h) (pos : Nat)
    {root : Root Nat} {j : JVal} (he : rootTo (genOf rand) fuel it h pos root = .ok (j, h1)) : h1 = h :=
  rootTo_settled hd he

/-- C100: what a JSON value is read as, if the type is given: exactly the value it stands for (`JsonForm.Reads`). -/
theorem C100_read {ρ : Type} (O : Overflow) (it : Iter) (t : Ty) (j : JVal) (v : Value ρ) :
    valueFrom O it t j = .ok (some v) ↔ JsonForm.Reads O JsonForm.typeOf t j v :=
  valueFrom_reads O it

/-- C100: the value that is written for a value, given that references are settled. -/
theorem C100_value (rand : Nat → Bytes) (fuel : Nat) (v : Value Nat) {st st' : RefState Nat} {j : JVal}
    (h : valueTo (genOf rand) fuel v st = .ok (j, st')) : j = JsonForm.value (JsonForm.reference st'.heap) v :=
  valueTo_form (genOf_nonempty rand) v h (.refl _)

/-- C100: the names of types, literally, and the types with these names. -/
theorem C100_names (it : Iter) (t : Ty) (s : Bytes) :
    typeString t.code = str (JsonForm.typeName t) ∧ (tyOf (typeFromString it s) = JsonForm.typeOf s) ∧
    JsonForm.typeOf (str (JsonForm.typeName t)) = t ∧ (JsonForm.typeOf s = t → t ≠ .invalid → s = str (JsonForm.typeName t)) := by
  refine ⟨typeName_eq t, congrFun (typeNamed_eq it) s, typeOf_name t, fun h ht => ?_⟩
  by_cases hs : ∃ u ∈ JsonForm.types, str (JsonForm.typeName u) = s
  · obtain ⟨u, -, rfl⟩ := hs
    rw [typeOf_name] at h
    rw [h]
  · rw [typeOf_other fun u hu e => hs ⟨u, hu, e⟩] at h
    exact absurd h.symm ht

/-- An instance `A` with a child `B`, whose property `P` refers to the parent. -/
def formHeap : Heap Nat :=
  [(0, { className := str "A", reference := str "r", children := [1] }),
   (1, { className := str "B", reference := str "s", isService := true, properties := [(str "P", .reference (some 0))] })]

/-- Its form, literally; `0` is the bits of the number 0. -/
example (rand : Nat → Bytes) (fuel : Nat) : rootTo (genOf rand) fuel .id formHeap 0 ⟨[0], []⟩ = .ok (
    .obj [(str "rbxfile_version", .num 0), (str "instances", .arr [
      .obj [(str "class_name", .str (str "A")), (str "reference", .str (str "r")), (str "is_service", .bool false),
        (str "properties", .obj []), (str "children", .arr [
          .obj [(str "class_name", .str (str "B")), (str "reference", .str (str "s")), (str "is_service", .bool true),
            (str "properties", .obj [(str "P", .obj [(str "type", .str (str "Reference")), (str "value", .str (str "r"))])]),
            (str "children", .arr [])]])]])], formHeap) := by
  have h0 : intToF64 0 = 0 := by decide +kernel
  have ht : typeString (Ty.reference).code = str "Reference" := typeName_eq _
  rw [← h0, ← ht]
  rfl

example : JsonForm.Distinct formHeap := by
  constructor
  · intro p a h
    simp only [formHeap, Map.get?] at h
    split at h
    · cases h; decide
    · split at h
      · cases h; decide
      · cases h
  · intro p q a b h h' e
    simp only [formHeap, Map.get?] at h h'
    split at h <;> split at h'
    · simp_all
    · split at h'
      · cases h; cases h'; cases e
      · cases h'
    · split at h
      · cases h; cases h'; cases e
      · cases h
    · split at h <;> split at h' <;> simp_all

/-- A value written by another program: an Optional of a vector. -/
example (O : Overflow) : JsonForm.Reads (ρ := Nat) O JsonForm.typeOf .optional
    (.obj [(str "note", .null), (str "value", .obj [(str "y", .num 0), (str "x", .num 0)]), (str "type", .str (str "Vector2"))])
    (.optional .vector2 (some (.vector2 ⟨f64to32 0, f64to32 0⟩))) :=
  have h : JsonForm.typeOf (str "Vector2") = .vector2 := typeOf_name .vector2
  JsonForm.Reads.present (v := .vector2 ⟨f64to32 0, f64to32 0⟩) (x := .obj [(str "y", .num 0), (str "x", .num 0)]) (s := str "Vector2")
    rfl rfl (fun e => by cases e) (by rw [h]; exact .plain ⟨rfl, _, rfl, ⟨0, rfl, rfl⟩, ⟨0, rfl, rfl⟩⟩)

theorem instances_mem {h : Heap Nat} {ps : List Nat} {js : List JVal} (H : JsonForm.Instances h ps js) : ∀ i ∈ js, ∃ p ∈ ps, ∃ inst props kids,
    h.get? p = some inst ∧ props.Perm (inst.properties.map fun x => (x.1, JsonForm.property h x.2)) ∧ JsonForm.Instances h inst.children kids ∧
    i = JsonForm.object [("class_name", .str inst.className), ("reference", .str inst.reference),
      ("is_service", .bool inst.isService), ("properties", .obj props), ("children", .arr kids)] := by
  induction H with
  | nil => intro i hi; cases hi
  | cons a b c _ _ ih2 =>
    intro i hi
    rcases List.mem_cons.1 hi with rfl | hi
    · exact ⟨_, List.mem_cons_self .., _, _, _, a, b, c, rfl⟩
    · obtain ⟨p, hp, rest⟩ := ih2 i hi
      exact ⟨p, List.mem_cons_of_mem _ hp, rest⟩

theorem mem_instances {h : Heap Nat} {ps : List Nat} {js : List JVal} (H : JsonForm.Instances h ps js) : ∀ p ∈ ps, ∃ i ∈ js, ∃ inst props kids,
    h.get? p = some inst ∧ props.Perm (inst.properties.map fun x => (x.1, JsonForm.property h x.2)) ∧
    i = JsonForm.object [("class_name", .str inst.className), ("reference", .str inst.reference),
      ("is_service", .bool inst.isService), ("properties", .obj props), ("children", .arr kids)] := by
  induction H with
  | nil => intro i hi; cases hi
  | cons a b _ _ _ ih2 =>
    intro p hp
    rcases List.mem_cons.1 hp with rfl | hp
    · exact ⟨_, List.mem_cons_self .., _, _, _, a, b, rfl⟩
    · obtain ⟨i, hi, rest⟩ := ih2 p hp
      exact ⟨i, List.mem_cons_of_mem _ hi, rest⟩

theorem form_read (name : Nat → Bytes) {v : Value Nat} (hs : JsonSupported v) (hr : v.type ≠ .reference)
    (hn : ∀ n n', JsonForm.value n v = JsonForm.value n' v) :
    Returns (valueFrom (ρ := Nat) ⟨fun _ _ => 0, fun _ _ => 0⟩ .id v.type (JsonForm.value name v)) := by
  obtain ⟨j, w, h1, h2, -⟩ := C51_values_partial (rand := fun _ => [0]) (fuel := 0) (O := ⟨fun _ _ => 0, fun _ _ => 0⟩) (it := .id) hs hr
    ⟨[], [], 0⟩
  rw [hn name (JsonForm.reference []), ← C100_value (fun _ => [0]) 0 v h1]
  exact ⟨_, h2⟩

/-- The form of a value that is not Optional can be read. -/
theorem form_shaped (name : Nat → Bytes) (v : Value Nat) (hv : ∀ t o, v ≠ .optional t o) :
    WellShaped JsonForm.typeOf v.type (JsonForm.value name v) := by
  have key : Returns (valueFrom (ρ := Nat) ⟨fun _ _ => 0, fun _ _ => 0⟩ .id v.type (JsonForm.value name v)) := by
    cases v with
    | optional t o => exact absurd rfl (hv t o)
    | binaryString s => exact ⟨_, rfl⟩
    | sharedString s => exact ⟨_, rfl⟩
    | int64 n => exact ⟨_, rfl⟩
    | uniqueId => exact ⟨_, rfl⟩
    | font => exact ⟨_, rfl⟩
    | reference q => cases q <;> exact ⟨_, rfl⟩
    | _ =>
      rename_i x
      refine form_read name ?_ ?_ ?_
      · trivial
      · simp [Value.type]
      · intro n n'; rfl
  rw [valueFrom_iff, typeNamed_eq] at key
  exact key

/-- C52: exactly when the conversion back panics, for any root that is converted: an instance of the root has children or an Optional
property. -/
theorem C52_back_panics_iff (rand : Nat → Bytes) (fuel : Nat) (O : Overflow) (it1 it2 : Iter) {h : Heap Nat} (pos : Nat)
    {root : Root Nat} {j : JVal} {h1 : Heap Nat} (he : rootTo (genOf rand) fuel it1 h pos root = .ok (j, h1)) :
    rootFrom O it2 j = .panic ↔ ∃ p ∈ root.instances, ∃ inst, h.get? p = some inst ∧
      (inst.children ≠ [] ∨ ∃ n t o, (n, Value.optional t o) ∈ inst.properties) := by
  obtain ⟨js, l, rfl, hi, k1, k2, -⟩ := C100_written rand fuel it1 pos he
  have e1 : index (JsonForm.object [("rbxfile_version", JsonForm.whole 0), ("instances", .arr js)]) (str "rbxfile_version") =
    some (.num (intToF64 0)) := rfl
  have e2 : index (JsonForm.object [("rbxfile_version", JsonForm.whole 0), ("instances", .arr js)]) (str "instances") = some (.arr js) := by
    simp only [JsonForm.object, List.map_cons, List.map_nil]
    rfl
  constructor
  · intro hp
    obtain ⟨f, l', i, -, -, h3, h4, m, cls, h5, -, h6⟩ := (C52_panics_iff O it2 _).1 hp
    rw [e2] at h3
    cases h3
    obtain ⟨p, hpm, inst, props, kids, h7, h8, h9, rfl⟩ := instances_mem hi i h4
    obtain ⟨r, hr⟩ := k2 p inst h7
    refine ⟨p, hpm, _, hr, ?_⟩
    cases h5
    simp only [List.map_cons, List.map_nil] at h6
    rcases h6 with ⟨cs, c, g1, g2, -⟩ | ⟨ps, n, pm, t, v, g1, g2, g3, g4, g5⟩
    · left
      rw [show Map.get? _ (str "children") = some (JVal.arr kids) from rfl] at g1
      cases g1
      intro hc
      simp only at hc
      rw [hc] at h9
      cases h9
      cases g2
    · right
      rw [show Map.get? _ (str "properties") = some (JVal.obj props) from rfl] at g1
      cases g1
      obtain ⟨⟨n', x⟩, hx, e⟩ := List.mem_map.1 (h8.mem_iff.1 g2)
      simp only [Prod.mk.injEq] at e
      obtain ⟨rfl, e⟩ := e
      cases e
      simp only [List.map_cons, List.map_nil] at g3 g4
      rw [show Map.get? _ (str "type") = some (JVal.str (str (JsonForm.typeName x.type))) from rfl] at g3
      cases g3
      rw [show Map.get? _ (str "value") = some (JsonForm.value (JsonForm.reference h1) x) from rfl] at g4
      cases g4
      rw [(C100_names .id x.type []).2.2.1] at g5
      refine Classical.byContradiction fun hc => g5 (form_shaped _ _ ?_)
      rintro t o rfl
      exact hc ⟨n', t, o, hx⟩
  · rintro ⟨p, hp, inst, h2, h3 | ⟨n, t, o, h3⟩⟩
    · exact C52_children_fails rand fuel O it1 it2 pos hp h2 h3 he
    · obtain ⟨i, him, inst', props, kids, h4, h5, rfl⟩ := mem_instances hi p hp
      obtain ⟨r, hr⟩ := k1 p inst h2
      rw [h4] at hr
      cases hr
      refine (C52_panics_iff O it2 _).2 ⟨_, js, _, e1, ?_, e2, him, _, inst.className, rfl, ?_, .inr ⟨props, n,
        [(str "type", .str (str (JsonForm.typeName .optional))), (str "value", JsonForm.value (JsonForm.reference h1) (.optional t o))],
        _, _, ?_, ?_, rfl, rfl, ?_⟩⟩
      · have := f64ToInt_back O (by decide : 0 < 64) 0#64 (by decide) ⟨0, 0, by decide, by decide⟩
        simpa using this
      · simp only [List.map_cons, List.map_nil]; rfl
      · simp only [List.map_cons, List.map_nil]; rfl
      · rw [h5.mem_iff]
        exact List.mem_map.2 ⟨_, h3, rfl⟩
      · rw [(C100_names .id .optional []).2.2.1]
        cases o <;> simp only [JsonForm.value, JsonForm.object, List.map_cons, List.map_nil]
        · intro hw
          cases hw with
          | plain h => exact absurd rfl h
          | none h => exact absurd rfl (h _)
          | absent h => cases h
          | null h => cases h
          | value h => cases h
        · intro hw
          cases hw with
          | plain h => exact absurd rfl h
          | none h => exact absurd rfl (h _)
          | absent h => cases h
          | null h => cases h
          | value h => cases h

/-- One instance without children: with an Optional property, and without. -/
example : (rootTo (genOf counter) 1 .id [(7, { className := [87#8], properties := [([80#8], .optional .bool none)] })] 0 { instances := [7] }).isOk ∧
    (rootTo (genOf counter) 1 .id [(7, { className := [87#8], properties := [([80#8], .font [] 0 0 [])] })] 0 { instances := [7] }).isOk := by
  decide +kernel

end Props

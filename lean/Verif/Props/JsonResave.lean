import Verif.Props.ConvertJson
import Verif.Props.JsonForm
/-!
# C113: reading a JSON document, saving it, and reading it again

`l` is the list of instances in the JSON, `l.filter describes` its elements that describe an instance. `rootFrom` is
`RootFromJSONInterface`, `rootTo` is `RootToJSONInterface`.
-/
namespace Props
open Go Rbxfile Spec Json

section
variable {O : Overflow} {it : Iter} {j : JVal} {h : Heap Nat} {root : Root Nat} {l : List JVal}
  (hr : rootFrom O it j = .ok (some (h, root)))
include hr

/-- C113: a root read from JSON without Optionals is written as JSON, whether its descriptions have different references or not, if the
random source does not repeat itself (`Fresh`). -/
theorem C113_saves (hs : ∀ p a, h.get? p = some a → ∀ n t o, a.properties.get? n ≠ some (.optional t o))
    (rand : Nat → Bytes) (fuel : Nat) (it1 : Iter) (pos : Nat)
    (hf : ∀ lst, Forest h root.instances lst → Fresh (genOf rand) (Rbxlx.demand lst) fuel) :
    ∃ j1 h1, rootTo (genOf rand) fuel it1 h pos root = .ok (j1, h1) := by
  obtain ⟨⟨lst, hl, -⟩, h2⟩ := C98_finite hr
  refine (C97_json_returns_iff rand fuel it1 h pos root hf fun p a ha n v hm q hq => ?_).2 ⟨lst, hl⟩
  have hv : a.properties.get? n = some v := Map.get?_of_mem (h2 p a ha).2.1 hm
  cases hq with
  | reference => exact (h2 p a ha).2.2 n q hv
  | optional t v q _ => exact absurd hv (hs p a ha n t _)

variable (hl : index j (str "instances") = some (.arr l)) (hd : DescribedApart (l.filter describes))
include hl hd

/-- C113: what is read from the JSON that is written has, in order, one instance for each description in the original: with the class
name, the flag, without children, and with the properties that the description has and no others, with the values described (up to the
bits of numbers that are not numbers). A reference leads to the instance of the description with this reference, and to none if there
is no such description. Each instance has a reference; it is the one described, if no instance has an empty reference. Assumed are the
values of C52: no Optionals, binary strings and shared strings of whole groups of three bytes, integers that are exact as a double. -/
theorem C113_same_instances (hok : ∀ d ∈ l, ∀ ps, index d (str "properties") = some (.obj ps) → Map.Ok ps)
    (hs : ∀ p a, h.get? p = some a → ∀ n v, a.properties.get? n = some v → JsonSupported v)
    (rand : Nat → Bytes) (fuel : Nat) (it1 it2 : Iter) (pos : Nat) {j1 : JVal} {h1 : Heap Nat}
    (he : rootTo (genOf rand) fuel it1 h pos root = .ok (j1, h1)) :
    ∃ (target : Bytes → Option Nat) (φ : Nat → Option Nat) (h2 : Heap Nat) (root2 : Root Nat),
      rootFrom O it2 j1 = .ok (some (h2, root2)) ∧ root2.metadata = [] ∧
      (∀ r p q, target r = some p → φ p = some q → ∃ d ∈ l.filter describes, referenceIn d = r) ∧
      List.Forall₂ (fun d q => ∃ a i, ReadInstance O target d a ∧ h2.get? q = some i ∧
        (referenceIn d ≠ [] → ∃ p, target (referenceIn d) = some p ∧ φ p = some q) ∧
        i.className = a.className ∧ i.isService = a.isService ∧ i.children = [] ∧ isEmptyReference i.reference = false ∧
        ((∀ p b, h.get? p = some b → isEmptyReference b.reference = false) → i.reference = referenceIn d) ∧
        ∀ n, (a.properties.get? n = none → i.properties.get? n = none) ∧
          ∀ v, a.properties.get? n = some v → ∃ w, i.properties.get? n = some w ∧ JsonKept φ v w)
        (l.filter describes) root2.instances := by
  obtain ⟨⟨lst, hf, hk⟩, hb⟩ := C98_finite hr
  obtain ⟨lst', ht⟩ := (C98_trees_iff hr hl).2 hd
  cases forest_unique hf ht.1
  have hget := forest_mem hf
  obtain ⟨hmeta, -, target, htar, hall, -⟩ := C98_read hr hl hd hok
  obtain ⟨φ, h2, root2, e1, e2, e3, e4, e5⟩ := C52_flat_partial rand fuel O it1 it2 pos ht
    (fun x hx => (hb x.1 x.2 (hget x.1 x.2 hx)).1) (fun x hx => (hb x.1 x.2 (hget x.1 x.2 hx)).2.1)
    (fun x hx n v hv => hs x.1 x.2 (hget x.1 x.2 hx) n v hv) he
  obtain ⟨js, l1, -, -, -, -, w5, w6⟩ := C100_written rand fuel it1 pos he
  cases forest_unique hf w5
  have hsettled : (∀ p b, h.get? p = some b → isEmptyReference b.reference = false) → h1 = h := fun hne =>
    C100_unaltered rand fuel it1 ⟨hne, fun p q a b ha hb hab => by
      have h0 : a.reference ≠ [] := fun e => by
        have := hne p a ha
        rw [e] at this
        cases this
      have hp := (htar a.reference p).2 ⟨h0, a, ha, rfl⟩
      have hq := (htar a.reference q).2 ⟨h0, b, hb, hab.symm⟩
      rw [hp] at hq
      exact Option.some.inj hq⟩ pos he
  refine ⟨target, φ, h2, root2, e1, e3, ?_, ?_⟩
  · intro r p q hp hq
    have hmem : p ∈ lst.map Prod.fst := (e2.defined p).1 (by rw [hq]; rfl)
    rw [hk] at hmem
    obtain ⟨k, k1, rfl⟩ := List.getElem_of_mem hmem
    have k2 : k < (l.filter describes).length := by rw [hall.length_eq]; exact k1
    obtain ⟨a, ha, hra⟩ := (List.forall₂_iff_get.1 hall).2 k k2 k1
    simp only [List.get_eq_getElem] at ha hra
    obtain ⟨-, a', ha', rfl⟩ := (htar r _).1 hp
    rw [ha] at ha'
    cases ha'
    exact ⟨_, List.getElem_mem k2, hra.reference.symm⟩
  · have hlen : root2.instances.length = root.instances.length := by
      have := congrArg List.length e4
      simpa using this
    refine List.forall₂_iff_get.2 ⟨hall.length_eq.trans hlen.symm, fun k k1 k2 => ?_⟩
    have k3 : k < root.instances.length := by rw [← hlen]; exact k2
    obtain ⟨a, ha, hra⟩ := (List.forall₂_iff_get.1 hall).2 k k1 k3
    simp only [List.get_eq_getElem] at ha hra ⊢
    have hmem : (root.instances[k], a) ∈ lst := by
      have : root.instances[k] ∈ lst.map Prod.fst := by rw [hk]; exact List.getElem_mem k3
      obtain ⟨⟨p, b⟩, hpb, e⟩ := List.mem_map.1 this
      have e : p = root.instances[k] := e
      have := hget p b hpb
      rw [e, ha] at this
      cases this
      rw [← e]; exact hpb
    obtain ⟨q, i, r, a1, a2, a3, a4, a5, a6, a7, a8⟩ := e5 _ _ hmem
    have hq : q = root2.instances[k] := by
      have := congrArg (·[k]?) e4
      simp only [List.getElem?_map, List.getElem?_eq_getElem k2, List.getElem?_eq_getElem k3, Option.map_some] at this
      rw [a1] at this
      simpa using this.symm
    subst hq
    refine ⟨a, i, hra, a2, fun hne => ?_, a5, a6, a7, ?_, fun hne => ?_, fun n => ⟨fun h0 => ?_, fun v hv => ?_⟩⟩
    · exact ⟨root.instances[k], (htar _ _).2 ⟨hne, a, ha, hra.reference⟩, a1⟩
    · have := (w6 _ (List.mem_map.2 ⟨_, hmem, rfl⟩)).1
      unfold JsonForm.reference at this
      rw [a3] at this
      rw [a4]
      exact this
    · rw [hsettled hne, ha] at a3
      rw [a4, ← hra.reference]
      have := congrArg Inst.reference (Option.some.inj a3)
      exact this.symm
    · have := a8 n
      rw [h0] at this
      exact this
    · have := a8 n
      rw [hv] at this
      exact this

end

/-! ### An example -/

/-- Two instances that refer to each other and to an instance without a class name. -/
def plainList : List JVal :=
  [readList[0], readList[1],
   .obj [(str "class_name", .str (str "Part")), (str "reference", .str (str "B")),
     (str "properties", .obj [(str "Next", .obj [(str "type", .str (str "Reference")), (str "value", .str (str "C"))])])]]

/-- What is read from the list. -/
def plainHeap : Heap Nat :=
  [(0, { className := str "Part", reference := str "A", isService := true,
         properties := [(str "Name", .string (str "x")), (str "Next", .reference (some 2))] }),
   (1, { className := [], reference := str "C" }),
   (2, { className := str "Part", reference := str "B", properties := [(str "Next", .reference (some 1))] })]

theorem plain_demand {lst : Map Nat (Inst Nat)} (hf : Forest plainHeap [0, 2] lst) : Rbxlx.demand lst ≤ 7 := by
  cases hf with
  | cons h1 h2 h3 =>
    cases h1
    cases h2
    cases h3 with
    | cons h1 h2 h3 => cases h1; cases h2; cases h3; decide

set_option maxRecDepth 20000 in
/-- It is saved and read again, and has its references. -/
example (O : Overflow) : ∃ j1 h1 h2 root2, rootTo (genOf counter) 8 .rev plainHeap 0 { instances := [0, 2] } = .ok (j1, h1) ∧
    rootFrom O .rev j1 = .ok (some (h2, root2)) ∧
    List.Forall₂ (fun r q => ∃ i, h2.get? q = some i ∧ i.reference = r) [str "A", str "B"] root2.instances := by
  have hr : rootFrom O .id (readRoot plainList) = .ok (some (plainHeap, { instances := [0, 2] })) :=
    rootFrom_readRoot O .id plainList rfl rfl
  have hf : plainList.filter describes = [plainList[0], plainList[2]] := rfl
  have hd : DescribedApart (plainList.filter describes) := by
    unfold DescribedApart
    rw [hf]
    refine .cons ?_ (.cons nofun .nil)
    intro b hb
    simp only [List.mem_singleton] at hb
    subst hb
    intro _
    decide +kernel
  have hall : ∀ p a, plainHeap.get? p = some a → isEmptyReference a.reference = false ∧ ∀ y ∈ a.properties,
      (∀ t o, y.2 ≠ .optional t o) ∧ JsonSupported y.2 := by
    intro p a ha
    have := Map.mem_of_get? ha
    simp only [plainHeap, List.mem_cons, List.not_mem_nil, or_false, Prod.mk.injEq] at this
    rcases this with ⟨-, rfl⟩ | ⟨-, rfl⟩ | ⟨-, rfl⟩
    · refine ⟨by decide +kernel, fun y hy => ?_⟩
      simp only [List.mem_cons, List.not_mem_nil, or_false] at hy
      rcases hy with rfl | rfl <;> exact ⟨nofun, trivial⟩
    · exact ⟨by decide +kernel, nofun⟩
    · refine ⟨by decide +kernel, fun y hy => ?_⟩
      simp only [List.mem_cons, List.not_mem_nil, or_false] at hy
      subst hy
      exact ⟨nofun, trivial⟩
  obtain ⟨j1, h1, he⟩ := C113_saves hr (fun p a ha n t o hv => ((hall p a ha).2 _ (Map.mem_of_get? hv)).1 t o rfl) counter 8 .rev 0
    fun lst hl => Fresh_mono (counter_fresh 7 (by omega)) (plain_demand hl) (Nat.le_refl _)
  obtain ⟨_, _, h2, root2, e1, -, -, hfa⟩ := C113_same_instances hr rfl hd (by
    intro d hd ps hps
    simp only [plainList, List.mem_cons, List.not_mem_nil, or_false] at hd
    rcases hd with rfl | rfl | rfl
    · cases hps; unfold Map.Ok; decide +kernel
    · cases hps
    · cases hps; unfold Map.Ok; decide +kernel)
    (fun p a ha n v hv => ((hall p a ha).2 _ (Map.mem_of_get? hv)).2) counter 8 .rev .rev 0 he
  refine ⟨j1, h1, h2, root2, he, e1, ?_⟩
  have e : [str "A", str "B"] = (plainList.filter describes).map referenceIn := rfl
  rw [e, List.forall₂_map_left_iff]
  refine hfa.imp ?_
  rintro d q ⟨a, i, -, g1, -, -, -, -, -, g2, -⟩
  exact ⟨i, g1, g2 fun p b hb => (hall p b hb).1⟩

end Props

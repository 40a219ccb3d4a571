import Verif.Props.ConvertBinary
import Verif.Props.NotTree
import Verif.Props.JsonForm
/-!
# C115: converting a binary file to JSON

`DecodesTo … b f h root`: the binary file `b`, with the chunks `f`, is decoded to the structure `(h, root)`. `rootTo` is
`RootToJSONInterface`. The models name instances differently: the binary decoder by numbers of 32 bits, the JSON package by natural numbers.
`placed h` is the structure with these natural numbers.
-/
namespace Spec
open Go Rbxfile

/-- A value, with other names of instances. -/
def placedValue : Value (BitVec 32) → Value Nat
  | .reference q => .reference (q.map BitVec.toNat)
  | .optional t none => .optional t none
  | .optional t (some v) => .optional t (some (placedValue v))
  | .string s => .string s
  | .binaryString s => .binaryString s
  | .protectedString s => .protectedString s
  | .content s => .content s
  | .bool b => .bool b
  | .int n => .int n
  | .float f => .float f
  | .double f => .double f
  | .udim u => .udim u
  | .udim2 x y => .udim2 x y
  | .ray o d => .ray o d
  | .faces a b c d e f => .faces a b c d e f
  | .axes x y z => .axes x y z
  | .brickColor n => .brickColor n
  | .color3 c => .color3 c
  | .vector2 v => .vector2 v
  | .vector3 v => .vector3 v
  | .cframe p r => .cframe p r
  | .token n => .token n
  | .vector3int16 x y z => .vector3int16 x y z
  | .vector2int16 x y => .vector2int16 x y
  | .numberSequence ks => .numberSequence ks
  | .colorSequence ks => .colorSequence ks
  | .numberRange a b => .numberRange a b
  | .rect a b => .rect a b
  | .physicalProperties a b c d e f => .physicalProperties a b c d e f
  | .color3uint8 r g b => .color3uint8 r g b
  | .int64 n => .int64 n
  | .sharedString s => .sharedString s
  | .uniqueId a b c => .uniqueId a b c
  | .font a b c d => .font a b c d

/-- An instance, with other names of instances. -/
def placedInst (a : Inst (BitVec 32)) : Inst Nat :=
  { className := a.className, reference := a.reference, isService := a.isService,
    properties := a.properties.map fun y => (y.1, placedValue y.2), children := a.children.map BitVec.toNat }

/-- A structure, with other names of instances. -/
def placed (h : Heap (BitVec 32)) : Heap Nat := h.map fun x => (x.1.toNat, placedInst x.2)

end Spec

namespace Props
open Go Rbxfile Rbxl Spec

theorem placed_get (h : Heap (BitVec 32)) (p : BitVec 32) : (placed h).get? p.toNat = (h.get? p).map placedInst := by
  unfold placed
  induction h with
  | nil => rfl
  | cons x h ih =>
    obtain ⟨q, a⟩ := x
    simp only [List.map_cons, Map.get?]
    by_cases e : q = p
    · subst e; simp
    · rw [if_neg (fun e' => e (BitVec.eq_of_toNat_eq e')), if_neg e]
      exact ih

theorem placed_some {h : Heap (BitVec 32)} {k : Nat} {i : Inst Nat} (hk : (placed h).get? k = some i) :
    ∃ p a, p.toNat = k ∧ h.get? p = some a ∧ i = placedInst a := by
  have := Map.mem_of_get? hk
  obtain ⟨x, -, e⟩ := List.mem_map.1 this
  simp only [Prod.mk.injEq] at e
  obtain ⟨rfl, -⟩ := e
  rw [placed_get] at hk
  obtain ⟨a, ha, rfl⟩ := Option.map_eq_some_iff.1 hk
  exact ⟨x.1, a, rfl, ha, rfl⟩

theorem placed_forest {h : Heap (BitVec 32)} {ps : List (BitVec 32)} {l : Map (BitVec 32) (Inst (BitVec 32))} (f : Forest h ps l) :
    Forest (placed h) (ps.map BitVec.toNat) (placed l) := by
  induction f with
  | nil => exact .nil
  | cons h1 _ _ ih1 ih2 =>
    have := Forest.cons (h := placed h) (by rw [placed_get, h1]; rfl) ih1 ih2
    simpa [placed] using this

theorem placed_forest_back {h : Heap (BitVec 32)} {ks : List Nat} {m : Map Nat (Inst Nat)} (f : Forest (placed h) ks m) :
    ∀ ps, ks = ps.map BitVec.toNat → ∃ l, Forest h ps l := by
  induction f with
  | nil =>
    intro ps e
    cases ps with
    | nil => exact ⟨[], .nil⟩
    | cons _ _ => simp at e
  | cons h1 _ _ ih1 ih2 =>
    intro ps e
    cases ps with
    | nil => simp at e
    | cons p ps =>
      simp only [List.map_cons, List.cons.injEq] at e
      obtain ⟨rfl, e⟩ := e
      rw [placed_get] at h1
      obtain ⟨a, ha, rfl⟩ := Option.map_eq_some_iff.1 h1
      obtain ⟨l1, f1⟩ := ih1 a.children rfl
      obtain ⟨l2, f2⟩ := ih2 ps e
      exact ⟨_, .cons ha f1 f2⟩

theorem placed_mentions {v : Value (BitVec 32)} {k : Nat} (hm : Mentions (placedValue v) k) : ∃ q, Mentions v q ∧ q.toNat = k := by
  cases v with
  | reference q =>
    cases q with
    | none => simp only [placedValue, Option.map_none] at hm; cases hm
    | some q => simp only [placedValue, Option.map_some] at hm; cases hm; exact ⟨q, .reference q, rfl⟩
  | optional t o =>
    cases o with
    | none => simp only [placedValue] at hm; cases hm
    | some v =>
      simp only [placedValue] at hm
      cases hm with
      | optional _ _ _ hm =>
        obtain ⟨q, h1, h2⟩ := placed_mentions hm
        exact ⟨q, .optional t v q h1, h2⟩
  | _ => simp only [placedValue] at hm; cases hm

/-- An instance that is referred to after decoding a binary file exists. -/
theorem binary_mentions {lz slack quat noXML b f h root} (d : DecodesTo lz slack quat noXML b f h root) :
    ∀ p inst, h.get? p = some inst → ∀ n v, inst.properties.get? n = some v → ∀ q, Mentions v q → (h.get? q).isSome := by
  have hb := (binary_heap d).2
  obtain ⟨-, -, -, st, rfl, rfl, hi⟩ := d.facts
  intro p inst hp n v hv q hq
  cases hq with
  | reference => exact ((hb p inst hp).2.2 n _ hv).2 q rfl
  | optional t w _ hw =>
    have hdv : ∀ {x : Val} {w : Value Rbxl.Id}, decodeValue quat x = some w → ∀ q, ¬ Mentions w q := by
      intro x w hw q
      cases x <;> simp only [decodeValue, Option.some.injEq, reduceCtorEq] at hw <;> subst hw <;> nofun
    obtain ⟨j, cls, a, pos, g, i, -, -, -, hread, -⟩ := (hi.props p inst hp n _).1 hv
    cases hread with
    | plain h1 h2 hx hd => exact absurd (.optional t w q hw) (hdv hd q)
    | some h1 h2 hd => exact absurd hw (hdv hd q)

section
variable {lz : LZ4} {slack : Bytes → Nat} {quat : Quat} {noXML : Bool} {b : Bytes} {f : FormatModel} {h : Heap Rbxl.Id}
  {root : Root Rbxl.Id} (d : DecodesTo lz slack quat noXML b f h root)
include d

/-- C115: exactly which binary files can be converted to JSON: those whose instances are finite, no instance being below itself. -/
theorem C115_converts_iff (rand : Nat → Bytes) (fuel : Nat) (it : Iter) (pos : Nat) (mt : Map Bytes Bytes)
    (hf : ∀ l, Forest (placed h) (root.instances.map BitVec.toNat) l → Fresh (genOf rand) (Rbxlx.demand l) fuel) :
    (∃ j h1, Json.rootTo (genOf rand) fuel it (placed h) pos ⟨root.instances.map BitVec.toNat, mt⟩ = .ok (j, h1)) ↔
      ∃ l, Forest h root.instances l := by
  have hm := binary_mentions d
  have hb := (binary_heap d).2
  rw [C97_json_returns_iff rand fuel it (placed h) pos ⟨root.instances.map BitVec.toNat, mt⟩ hf]
  · exact ⟨fun ⟨l, hl⟩ => placed_forest_back hl _ rfl, fun ⟨l, hl⟩ => ⟨_, placed_forest hl⟩⟩
  · intro k i hk n v hv q hq
    obtain ⟨p, a, rfl, ha, rfl⟩ := placed_some hk
    obtain ⟨y, hy, e⟩ := List.mem_map.1 hv
    cases e
    obtain ⟨q', h1, rfl⟩ := placed_mentions hq
    have hg := hm p a ha y.1 y.2 (Map.get?_of_mem (hb p a ha).2.1 hy) q' h1
    rw [placed_get, Option.isSome_map]
    exact hg

/-- C115: if the links of the file name no child twice, the file is converted to JSON. What is written is an object with the version 0
and, in order, the forms of the instances in the file with all that is below them (`JsonForm.Instances`, as in C100). The structure
afterwards, `h1`, is that of the file except for the references, which are generated: they are not empty and differ. -/
theorem C115_converts (hn : LinkedOnce (linksOf (beforeEnd f.chunks))) (rand : Nat → Bytes) (fuel : Nat) (it : Iter) (pos : Nat)
    (mt : Map Bytes Bytes) (hf : ∀ l, Forest (placed h) (root.instances.map BitVec.toNat) l → Fresh (genOf rand) (Rbxlx.demand l) fuel) :
    ∃ l js h1, Trees h root.instances l ∧
      Json.rootTo (genOf rand) fuel it (placed h) pos ⟨root.instances.map BitVec.toNat, mt⟩ =
        .ok (JsonForm.object [("rbxfile_version", JsonForm.whole 0), ("instances", .arr js)], h1) ∧
      JsonForm.Instances h1 (root.instances.map BitVec.toNat) js ∧
      (∀ p a, h.get? p = some a → ∃ r, h1.get? p.toNat = some { placedInst a with reference := r }) ∧
      (∀ x ∈ l, isEmptyReference (JsonForm.reference h1 x.1.toNat) = false ∧
        ∀ y ∈ l, JsonForm.reference h1 x.1.toNat = JsonForm.reference h1 y.1.toNat → x.1 = y.1) := by
  obtain ⟨l, ht⟩ := (C69_trees_iff d).2 hn
  obtain ⟨j, h1, he⟩ := (C115_converts_iff d rand fuel it pos mt hf).2 ⟨l, ht.1⟩
  obtain ⟨js, m, rfl, w1, w2, w3, w4, w5⟩ := C100_written rand fuel it pos he
  cases forest_unique w4 (placed_forest ht.1)
  have hmem : ∀ x ∈ l, x.1.toNat ∈ (placed l).map Prod.fst := fun x hx =>
    List.mem_map.2 ⟨_, List.mem_map.2 ⟨x, hx, rfl⟩, rfl⟩
  refine ⟨l, js, h1, ht, he, w1, fun p a ha => ?_, fun x hx => ⟨(w5 _ (hmem x hx)).1, fun y hy e => ?_⟩⟩
  · exact w2 p.toNat (placedInst a) (by rw [placed_get, ha]; rfl)
  · exact BitVec.eq_of_toNat_eq ((w5 _ (hmem x hx)).2 _ (hmem y hy) e)

end

/-! ### An example: the file of C72 -/

theorem link_demand_placed {l : Map Nat (Inst Nat)} (hf : Forest (placed linkHeap) [0] l) : Rbxlx.demand l ≤ 7 := by
  cases hf with
  | cons h1 h2 h3 =>
    cases h1
    cases h3
    cases h2 with
    | cons h1 h2 h3 => cases h1; cases h2; cases h3; decide

example : ∃ js h1, Json.rootTo (genOf counter) 8 .id (placed linkHeap) 0 ⟨[0], []⟩ =
    .ok (JsonForm.object [("rbxfile_version", JsonForm.whole 0), ("instances", .arr js)], h1) := by
  obtain ⟨l, js, h1, -, h, -⟩ := C115_converts linkFile_ok (linkedOnce_of_nodup (by decide +kernel)) counter 8 .id 0 []
    fun l hl => Fresh_mono (counter_fresh 7 (by omega)) (link_demand_placed hl) (Nat.le_refl _)
  exact ⟨js, h1, h⟩

end Props

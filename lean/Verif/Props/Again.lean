import Verif.Rbxlx.Again
import Verif.Json.Again
import Verif.Props.XmlResave
/-!
# C102: saving again
-/
namespace Props
open Go Rbxfile Spec

/-! ## XML -/

section
open Rbxlx
variable {ρ : Type} [DecidableEq ρ]

/-- C102: a tree that has been saved as XML and not changed since is saved again, as the same file, and no instance is changed
any more: whatever the References before, the random sources, the orders of maps and the sorting algorithms. -/
theorem C102_xml (P Q : Params) (L : Layout) (h h1 : Heap ρ) (root : Root ρ) (l : Map ρ (Inst ρ)) (rand : Nat → Bytes)
    (hg : P.gen = genOf rand) (hq : SameSettings P Q) (ht : Trees h root.instances l) (ok : ∀ x ∈ l, x.2.properties.Ok)
    (hm : root.metadata.Ok) (b : Bytes) (he : encode P L h root = .ok (b, h1)) : encode Q L h1 root = .ok (b, h1) :=
  encode_again hq (fun k => by rw [hg]; exact genOf_nonempty rand k) ht ok hm he

/-- C102: after a tree has been saved as XML, its instances and those it refers to have References, which are different. -/
theorem C102_xml_references (P : Params) (L : Layout) (h h1 : Heap ρ) (root : Root ρ) (l : Map ρ (Inst ρ)) (rand : Nat → Bytes)
    (hg : P.gen = genOf rand) (ht : Trees h root.instances l) (ok : ∀ x ∈ l, x.2.properties.Ok)
    (b : Bytes) (he : encode P L h root = .ok (b, h1)) : DistinctReferences h1 l :=
  (encode_distinct (fun k => by rw [hg]; exact genOf_nonempty rand k) ht ok he).2

end

/-! ## JSON -/

section
open Json

/-- C102: a tree that has been saved as JSON and not changed since is saved again; what is written has the same form, and no
instance is changed any more. -/
theorem C102_json_form (rand rand' : Nat → Bytes) (fuel fuel' : Nat) (it it' : Iter) (h h1 : Heap Nat) (pos pos' : Nat)
    (root : Root Nat) (j : JVal) (he : rootTo (genOf rand) fuel it h pos root = .ok (j, h1)) :
    ∃ j', rootTo (genOf rand') fuel' it' h1 pos' root = .ok (j', h1) ∧ SameJson j j' :=
  rootTo_again (genOf_nonempty rand) (genOf_nonempty rand') he

/-- C102: the same for the text, if the text of a JSON value does not depend on the order of fields (`encoding/json` sorts
them). -/
theorem C102_json (T : Text) (hT : ∀ j j', SameJson j j' → T.marshal j = T.marshal j') (rand rand' : Nat → Bytes)
    (fuel fuel' : Nat) (it it' : Iter) (h h1 : Heap Nat) (pos pos' : Nat) (root : Root Nat) (j : JVal)
    (he : rootTo (genOf rand) fuel it h pos root = .ok (j, h1)) :
    encode T (genOf rand') fuel' it' h1 pos' root = encode T (genOf rand) fuel it h pos root := by
  obtain ⟨j', e, hs⟩ := C102_json_form rand rand' fuel fuel' it it' h h1 pos pos' root j he
  unfold encode
  rw [he, e, Res.ok_bind, Res.ok_bind]
  exact (hT j j' hs).symm

/-- C102: after a tree has been saved as JSON, its instances and those it refers to have References, which are different. -/
theorem C102_json_references (rand : Nat → Bytes) (fuel : Nat) (it : Iter) (h h1 : Heap Nat) (pos : Nat) (root : Root Nat)
    (j : JVal) (he : rootTo (genOf rand) fuel it h pos root = .ok (j, h1)) :
    ∃ l, Forest h1 root.instances l ∧ JsonDistinct h1 l :=
  rootTo_distinct (genOf_nonempty rand) he

/-- C102: a tree whose instances, and those it refers to, have different References is saved as JSON, and nothing is changed. -/
theorem C102_json_settled (rand : Nat → Bytes) (fuel : Nat) (it : Iter) (h : Heap Nat) (pos : Nat) (root : Root Nat)
    (l : Map Nat (Inst Nat)) (f : Forest h root.instances l) (hd : JsonDistinct h l) :
    ∃ j, rootTo (genOf rand) fuel it h pos root = .ok (j, h) :=
  rootTo_known f hd pos

end

/-! ### Examples -/

/-- Two instances with the same Reference, the second referring to a third one outside of the tree, which has none. -/
def againHeap : Heap Nat :=
  [(0, { className := str "A", reference := str "R", children := [1] }),
   (1, { className := str "B", reference := str "R", properties := [(str "P", .reference (some 2)), (str "Q", .int 7),
     (str "S", .sharedString (str "s"))] }),
   (2, { className := str "C" })]

/-- The theorem applies: the first saving changes References, the second one, with another random source and other orders of
maps, writes the same file. -/
example : ∃ b h1, Rbxlx.encode exP {} againHeap { instances := [0] } = .ok (b, h1) ∧ h1 ≠ againHeap ∧
    Rbxlx.encode exQ {} h1 { instances := [0] } = .ok (b, h1) := by
  have h : (match Rbxlx.encode exP {} againHeap { instances := [0] } with | .ok x => decide (x.2 ≠ againHeap) | _ => false) = true := by
    decide +kernel
  cases he : Rbxlx.encode exP {} againHeap { instances := [0] } with
  | panic => rw [he] at h; cases h
  | err e => rw [he] at h; cases h
  | ok x =>
    rw [he] at h
    refine ⟨x.1, x.2, rfl, by simpa using h, ?_⟩
    refine C102_xml exP exQ {} againHeap x.2 { instances := [0] } [(0, _), (1, _)] counter rfl ⟨rfl, rfl, rfl, rfl, rfl⟩
      ⟨.cons (below := [(1, _)]) (rest := []) rfl (.cons (below := []) (rest := []) rfl .nil .nil) .nil, by unfold Map.Ok; decide⟩
      (fun y hy => ?_) Map.ok_nil x.1 he
    simp only [List.mem_cons, List.not_mem_nil, or_false] at hy
    rcases hy with rfl | rfl <;> (unfold Map.Ok; decide)

/-- The theorem applies to JSON. -/
example : ∃ j h1, Json.rootTo (genOf counter) 8 Iter.rev againHeap 0 { instances := [0] } = .ok (j, h1) ∧ h1 ≠ againHeap ∧
    ∃ j', Json.rootTo (genOf fun k => counter (k + 1000)) 3 Iter.id h1 5 { instances := [0] } = .ok (j', h1) ∧ SameJson j j' := by
  have h : (match Json.rootTo (genOf counter) 8 Iter.rev againHeap 0 { instances := [0] } with
      | .ok x => decide (x.2 ≠ againHeap) | _ => false) = true := by decide +kernel
  cases he : Json.rootTo (genOf counter) 8 Iter.rev againHeap 0 { instances := [0] } with
  | panic => rw [he] at h; cases h
  | err e => rw [he] at h; cases h
  | ok x =>
    rw [he] at h
    exact ⟨x.1, x.2, rfl, by simpa using h, C102_json_form counter _ 8 3 Iter.rev Iter.id againHeap x.2 0 5 { instances := [0] } x.1 he⟩

/-- If a Reference is removed between, the file differs. -/
example : differs (Rbxlx.encode exP {} againHeap { instances := [0] } >>= fun x =>
    Rbxlx.encode exQ {} againHeap { instances := [0] } >>= fun y => .ok (x.1, y.1)) = true := by decide +kernel

end Props

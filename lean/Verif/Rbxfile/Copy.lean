import Verif.Rbxfile.Refs
import Verif.Spec.Tree
import Mathlib.Data.List.Forall2
/-!
# Copying instances and roots (file.go:48-67, 102-149)

Pointers are natural numbers; `next` is the address the next allocation returns. Go maps are modelled
as values: two instances never share a `Properties` map. `it` is the order of iteration over maps.
-/
namespace Rbxfile
open Go Spec

/-- `Value.Copy` (values.go) as a function of the content; what it does in memory is modelled in
`Verif.Rbxfile.Memory`. `ValueFont.Copy` (values.go:1181-1188) copies `Family` into
`CachedFaceId`. -/
def Value.copy {ρ : Type} : Value ρ → Value ρ
  | .font family weight style _ => .font family weight style family
  | .optional typ (some v) => .optional typ (some v.copy)
  | v => v

/-- The variables of `Copy` and the allocator. -/
structure CState where
  st : RefState Nat
  next : Nat
  crefs : References Nat
  props : List (PropRef Nat)

/-- `clone.Properties[name] = value` and similar updates of the clone. -/
def CState.update (s : CState) (c : Nat) (f : Inst Nat → Inst Nat) : CState :=
  match s.st.heap.get? c with
  | none => s
  | some b => { s with st := { s.st with heap := s.st.heap.set c (f b) } }

section
variable (gen : Nat → Bytes) (fuel : Nat) (it : Iter)

/-- The loop over the properties in `Instance.copy` (file.go:111-121). -/
def copyProps (c : Nat) : List (Bytes × Value Nat) → CState → Res CState
  | [], s => .ok s
  | (name, .reference q) :: ps, s => do
    let (r, st) ← getRef gen fuel s.st q
    copyProps c ps { s with st := st, props := s.props ++ [⟨some c, name, r⟩] }
  | (name, v) :: ps, s =>
    copyProps c ps (s.update c fun b => { b with properties := b.properties.set name v.copy })

/-- The loop over instances, `f` being `Instance.copy` (file.go:122-125, 56-58). -/
def copyList (f : Nat → CState → Res (Nat × CState)) : List Nat → CState → Res (List Nat × CState)
  | [], s => .ok ([], s)
  | p :: ps, s => do
    let (c, s) ← f p s
    let (cs, s) ← copyList f ps s
    pure (c :: cs, s)

/-- `Instance.copy` (file.go:102-127). The slots of `clone.Children` are filled one by one in Go; the
model sets them at the end, nobody looks at them before. The recursion ends for trees; the model bounds its depth
by the first argument. -/
def copyInst : Nat → Nat → CState → Res (Nat × CState)
  | 0, _, _ => .panic
  | depth + 1, p, s =>
    match s.st.heap.get? p with
    | none => .panic
    | some inst => do
      let (r, st) ← getRef gen fuel s.st (some p)
      let c := s.next
      let s : CState := ⟨{ st with heap := st.heap.set c ⟨inst.className, r, inst.isService, [], []⟩ },
        c + 1, s.crefs.set r (some c), s.props⟩
      let s ← copyProps gen fuel c (it.run [p] inst.properties) s
      let (cs, s) ← copyList (copyInst depth) inst.children s
      pure (c, s.update c fun b => { b with children := cs })

/-- The loop that resolves the references (file.go:59-65, 141-147). -/
def resolveAll (crefs refs : References Nat) : List (PropRef Nat) → Heap Nat → Heap Nat
  | [], h => h
  | pr :: prs, h =>
    let r := crefs.resolve pr h
    let h := if r.1 then r.2 else (refs.resolve pr r.2).2
    resolveAll crefs refs prs h

/-- The state at the beginning of `Copy`: `next` is an address larger than those in use. -/
def copyStart (h : Heap Nat) (next pos : Nat) : CState := ⟨⟨h, [], pos⟩, next, [], []⟩

/-- `Instance.Copy` (file.go:136-149): the copy and the heap afterwards. -/
def instanceCopy (h : Heap Nat) (next pos : Nat) (p : Nat) : Res (Nat × Heap Nat) := do
  let (c, s) ← copyInst gen fuel it (h.length + 1) p (copyStart h next pos)
  pure (c, resolveAll s.crefs s.st.refs s.props s.st.heap)

/-- `Root.Copy` (file.go:48-67): the copy and the heap afterwards. `Metadata` is not copied. -/
def rootCopy (h : Heap Nat) (next pos : Nat) (root : Root Nat) : Res (Root Nat × Heap Nat) := do
  let (cs, s) ← copyList (copyInst gen fuel it (h.length + 1)) root.instances (copyStart h next pos)
  pure ({ instances := cs }, resolveAll s.crefs s.st.refs s.props s.st.heap)
end

end Rbxfile

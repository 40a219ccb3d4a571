import Verif.Go.Sort
import Verif.Rbxfile.Names
/-!
# The statistics of the command rbxfile-stat (cmd/rbxfile-stat/main.go:25-183)

Values are never nil in the model (`value == nil` is the call for the instance itself). The numbers of Go type `int` are
natural numbers: there are fewer than 2^63 instances and properties in memory.
-/
namespace Cmd
open Go Rbxfile

variable {ρ : Type} [DecidableEq ρ]

/-- `PropLen` (cmd/rbxfile-stat/main.go:27-32). -/
structure PropLen where
  cls : Bytes
  property : Bytes
  type : Bytes
  length : Nat
  deriving DecidableEq

/-- `PropLenCount.MarshalJSON` (cmd/rbxfile-stat/main.go:40-52): the list that is written; `it` is the order of iteration
over the map. -/
def largestList (it : Iter) (srt : Sorter) (m : Map PropLen Nat) : List PropLen :=
  let list := srt.run (fun a b => decide (b.length < a.length)) (it.run [0] m.keys)
  if 20 < list.length then list.take 20 else list

/-- The fields of `Stats` that `Fill` sets (cmd/rbxfile-stat/main.go:54-74). -/
structure Stats where
  instanceCount : Nat := 0
  propertyCount : Nat := 0
  classCount : Map Bytes Nat := []
  typeCount : Map Bytes Nat := []
  optionalTypeCount : Map Bytes Nat := []
  largest : Map PropLen Nat := []

/-- The status that a callback returns: the bits Exit, SkipProperties, SkipChildren (cmd/rbxfile-stat/main.go:76-81). -/
structure Status where
  exit : Bool := false
  skipProperties : Bool := false
  skipChildren : Bool := false

/-- A callback of `walk`: it is called for an instance (`none`), and for its properties. -/
abbrev Callback (ρ S : Type) := Inst ρ → Option (Bytes × Value ρ) → S → Status × S

section
variable {S : Type} (cb : Callback ρ S)

/-- The loop over the properties (cmd/rbxfile-stat/main.go:90-98): false if the walk ends. -/
def walkProps (inst : Inst ρ) : List (Bytes × Value ρ) → S → Bool × S
  | [], s => (true, s)
  | x :: xs, s =>
    let r := cb inst (some x) s
    if r.1.exit then (false, r.2)
    else if r.1.skipProperties then (true, r.2)
    else walkProps inst xs r.2

/-- The loop of `walk` (cmd/rbxfile-stat/main.go:83-107) over the instances from the `i`-th at a position; `f` is its body. -/
def walkList (f : List Nat → ρ → S → Res (Bool × S)) (path : List Nat) : Nat → List ρ → S → Res (Bool × S)
  | _, [], s => .ok (true, s)
  | i, p :: ps, s =>
    match f (i :: path) p s with
    | .panic => .panic
    | .err e => .err e
    | .ok (false, s) => .ok (false, s)
    | .ok (true, s) => walkList f path (i + 1) ps s

/-- The body of the loop of `walk` (cmd/rbxfile-stat/main.go:85-104). The first argument bounds the depth: with a tree that is
not finite the program overflows its stack. -/
def walkInst (it : Iter) (h : Heap ρ) : Nat → List Nat → ρ → S → Res (Bool × S)
  | 0, _, _, _ => .panic
  | fuel + 1, path, p, s =>
    match h.get? p with
    | none => .panic
    | some inst =>
      let r := cb inst none s
      if r.1.exit then .ok (false, r.2)
      else
        let q := if !r.1.skipProperties then walkProps cb inst (it.run path inst.properties) r.2 else (true, r.2)
        if !q.1 then .ok (false, q.2)
        else if !r.1.skipChildren then walkList (walkInst it h fuel) path 0 inst.children q.2
        else .ok (true, q.2)

/-- `walk` (cmd/rbxfile-stat/main.go:83-107); `k` tells the walks of `Fill` apart. -/
def walk (it : Iter) (h : Heap ρ) (fuel k : Nat) (ps : List ρ) (s : S) : Res (Bool × S) :=
  walkList (walkInst cb it h fuel) [k] 0 ps s
end

/-- `m[k]++`. -/
def bump {κ : Type} [DecidableEq κ] (m : Map κ Nat) (k : κ) : Map κ Nat := m.set k ((m.get? k).getD 0 + 1)

/-- The length of a value that has one (cmd/rbxfile-stat/main.go:157-175). -/
def valueLen : Value ρ → Option Nat
  | .binaryString s => some s.length
  | .colorSequence ks => some ks.length
  | .content s => some s.length
  | .numberSequence ks => some ks.length
  | .protectedString s => some s.length
  | .sharedString s => some s.length
  | .string s => some s.length
  | _ => none

/-- The callback for PropertyCount (cmd/rbxfile-stat/main.go:115-121). -/
def cbProperties : Callback ρ Nat := fun _ x n => match x with
  | none => ({}, n)
  | some _ => ({}, n + 1)

/-- The callback for InstanceCount and ClassCount (cmd/rbxfile-stat/main.go:125-129). -/
def cbInstances : Callback ρ (Nat × Map Bytes Nat) := fun inst _ s =>
  ({ skipProperties := true }, (s.1 + 1, bump s.2 inst.className))

/-- The callback for TypeCount (cmd/rbxfile-stat/main.go:132-138). -/
def cbTypes : Callback ρ (Map Bytes Nat) := fun _ x m => match x with
  | none => ({}, m)
  | some y => ({}, bump m (typeString y.2.type.code))

/-- The callback for OptionalTypeCount (cmd/rbxfile-stat/main.go:141-151). -/
def cbOptionals : Callback ρ (Map Bytes Nat) := fun _ x m => match x with
  | some (_, .optional ty _) => ({}, bump m (typeString ty.code))
  | _ => ({}, m)

/-- The callback for LargestProperties (cmd/rbxfile-stat/main.go:154-182). -/
def cbLargest : Callback ρ (Map PropLen Nat) := fun inst x m => match x with
  | none => ({}, m)
  | some y => match valueLen y.2 with
    | none => ({}, m)
    | some n => ({}, bump m ⟨inst.className, y.1, typeString y.2.type.code, n⟩)

/-- `Fill` (cmd/rbxfile-stat/main.go:109-183). -/
def fill (it : Iter) (h : Heap ρ) (fuel : Nat) (root : Root ρ) : Res Stats :=
  match walk cbProperties it h fuel 1 root.instances 0 with
  | .panic => .panic
  | .err e => .err e
  | .ok (_, props) =>
    match walk cbInstances it h fuel 2 root.instances (0, []) with
    | .panic => .panic
    | .err e => .err e
    | .ok (_, insts, classes) =>
      match walk cbTypes it h fuel 3 root.instances [] with
      | .panic => .panic
      | .err e => .err e
      | .ok (_, types) =>
        match walk cbOptionals it h fuel 4 root.instances [] with
        | .panic => .panic
        | .err e => .err e
        | .ok (_, optionals) =>
          match walk cbLargest it h fuel 5 root.instances [] with
          | .panic => .panic
          | .err e => .err e
          | .ok (_, largest) => .ok ⟨insts, props, classes, types, optionals, largest⟩

end Cmd

import Verif.Rbxlx.CodecValue
/-!
# Decoding a document into a tree (rbxlx/codec.go:42-237, rbxlx/format.go:22-35)

Instances are allocated in a heap: the pointer of a new instance is the number of instances that exist.
-/
namespace Rbxlx
open Go Rbxfile

/-- The instances and the fields `instLookup`, `propRefs` and `stringRefs` of `rdecoder`
(rbxlx/codec.go:58-66). -/
structure DecState where
  heap : Heap Nat := []
  lookup : References Nat := []
  propRefs : List (PropRef Nat) := []
  stringRefs : List (PropRef Nat) := []

/-- The result of `getProperty` for the instance `p` is recorded (rbxlx/codec.go:160-165, 213-230). -/
def applyProp (p : Nat) (r : PropRes Nat) (props : Map Bytes (Value Nat)) (st : DecState) :
    Map Bytes (Value Nat) × DecState :=
  match r with
  | .nothing => (props, st)
  | .value name v => (props.set name v, st)
  | .ref name ref => (props, { st with propRefs := st.propRefs ++ [⟨some p, name, ref⟩] })
  | .shared name hash => (props, { st with stringRefs := st.stringRefs ++ [⟨some p, name, hash⟩] })

/-- The loop over the tags in `Properties` (rbxlx/codec.go:160-165). -/
def getProps (F : FloatText) (discard : Bool) (p : Nat) : List Tag → Map Bytes (Value Nat) → DecState →
    Res (Map Bytes (Value Nat) × DecState)
  | [], props, st => .ok (props, st)
  | t :: ts, props, st =>
    match getProperty F discard t with
    | .panic => .panic
    | .err e => .err e
    | .ok r => getProps F discard p ts (applyProp p r props st).1 (applyProp p r props st).2

/-- A new instance (rbxlx/codec.go:136-143). -/
def enterItem (cls : Bytes) (referent : Option Bytes) (st : DecState) : DecState :=
  let ref := referent.getD []
  { st with
    heap := st.heap.set st.heap.length { className := cls, reference := ref }
    lookup := if ref ≠ [] ∧ isEmptyReference ref = false then st.lookup.set ref (some st.heap.length) else st.lookup }

mutual
/-- The loop of `getItems` (rbxlx/codec.go:123-170): `parent` is nil for the root, `hasProps` and `props` are the
variables of the loop. The result are the instances, the properties and the state. -/
def getItems (F : FloatText) (discard : Bool) : List Tag → Option Nat → Bool → Map Bytes (Value Nat) → DecState →
    Res (List Nat × Map Bytes (Value Nat) × DecState)
  | [], _, _, props, st => .ok ([], props, st)
  | t :: ts, parent, hasProps, props, st =>
    match getItem F discard t parent hasProps props st with
    | .panic => .panic
    | .err e => .err e
    | .ok (ids, hasProps, props, st) =>
      match getItems F discard ts parent hasProps props st with
      | .panic => .panic
      | .err e => .err e
      | .ok (ids', props, st) => .ok (ids ++ ids', props, st)
/-- The body of the loop of `getItems` (rbxlx/codec.go:128-166). -/
def getItem (F : FloatText) (discard : Bool) : Tag → Option Nat → Bool → Map Bytes (Value Nat) → DecState →
    Res (List Nat × Bool × Map Bytes (Value Nat) × DecState)
  | ⟨h, ts⟩, parent, hasProps, props, st =>
    if h.startName = str "Item" then
      match attrValue h.attr (str "class") with
      | none => .ok ([], hasProps, props, st)
      | some cls =>
        let p := st.heap.length
        let referent := attrValue h.attr (str "referent")
        match getItems F discard ts (some p) false [] (enterItem cls referent st) with
        | .panic => .panic
        | .err e => .err e
        | .ok (kids, own, st) =>
          .ok ([p], hasProps, props, { st with
            heap := st.heap.set p ⟨cls, referent.getD [], false, own, kids⟩ })
    else if h.startName = str "Properties" then
      match parent with
      | none => .ok ([], hasProps, props, st)
      | some p =>
        if hasProps then .ok ([], hasProps, props, st)
        else
          match getProps F discard p ts props st with
          | .panic => .panic
          | .err e => .err e
          | .ok (props, st) => .ok ([], true, props, st)
    else .ok ([], hasProps, props, st)
end

/-- `ref.Instance.Properties[ref.Property] = v`. -/
def setProperty (h : Heap Nat) (r : PropRef Nat) (v : Value Nat) : Heap Nat :=
  match r.inst with
  | none => h
  | some p =>
    match h.get? p with
    | none => h
    | some i => h.set p { i with properties := i.properties.set r.property v }

/-- The content of a shared string is given to the properties that refer to it (rbxlx/codec.go:107-111). -/
def assignShared (refs : List (PropRef Nat)) (key value : Bytes) (h : Heap Nat) : Heap Nat :=
  refs.foldl (fun h r => if r.reference = key then setProperty h r (.sharedString value) else h) h

/-- The body of the loop over the tags in `SharedStrings` (rbxlx/codec.go:91-112). -/
def sharedTag (refs : List (PropRef Nat)) (h : Heap Nat) (t : Tag) : Heap Nat :=
  if t.head.startName ≠ str "SharedString" then h
  else
    match attrValue t.head.attr (str "md5") with
    | none => h
    | some hash =>
      match b64Decode hash, b64Decode (getContent t) with
      | some key, some value => assignShared refs key value h
      | _, _ => h

/-- The loop over the tags of the root for `Meta` and `SharedStrings` (rbxlx/codec.go:79-114). -/
def rootTags (refs : List (PropRef Nat)) : List Tag → Map Bytes Bytes → Heap Nat → Map Bytes Bytes × Heap Nat
  | [], m, h => (m, h)
  | t :: ts, m, h =>
    if t.head.startName = str "Meta" then
      match attrValue t.head.attr (str "name") with
      | none => rootTags refs ts m h
      | some key => rootTags refs ts (m.set key t.head.text) h
    else if t.head.startName = str "SharedStrings" then
      rootTags refs ts m (t.tags.foldl (sharedTag refs) h)
    else rootTags refs ts m h

/-- `Decode` (rbxlx/codec.go:42-56, 68-121): the instances and the root. Without a root tag the result is an empty root:
the error of `decode` is dropped. -/
def codecDecode (F : FloatText) (discard : Bool) (root : Option Tag) : Res (Heap Nat × Root Nat) :=
  match root with
  | none => .ok ([], {})
  | some t =>
    match getItems F discard t.tags none false [] {} with
    | .panic => .panic
    | .err e => .err e
    | .ok (ids, _, st) =>
      let r := rootTags st.stringRefs t.tags [] st.heap
      .ok (st.propRefs.foldl (fun h pr => (st.lookup.resolve pr h).2) r.2, ⟨ids, r.1⟩)

/-- `Decoder.Decode` (rbxlx/format.go:22-35). -/
def decode (F : FloatText) (discard : Bool) (s : Bytes) : Res (Heap Nat × Root Nat) :=
  match readFrom s with
  | .panic => .panic
  | .err e => .err e
  | .ok (root, _) => codecDecode F discard root

end Rbxlx

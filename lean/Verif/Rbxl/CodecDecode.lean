import Verif.Rbxl.Model
import Verif.Rbxl.CodecValues
/-!
# Decoding a binary model into a tree (`robloxCodec.Decode`, rbxl/codec.go:39-197)

The instances created are identified by their instance id: the heap of the decoded tree is
`instLookup` itself (without the entry of the nil id, -1).
-/
namespace Rbxl
open Go Rbxfile

/-- The type of pointers to decoded instances: the instance id. -/
abbrev Id := BitVec 32

/-- Warnings of `robloxCodec.Decode`. -/
inductive CodecWarn where
  | unknownClass (chunk : Nat)
  | noValueType (chunk : Nat)
  | childMissing (chunk index : Nat)
  deriving DecidableEq, Repr

/-- The variables of `robloxCodec.Decode`. -/
structure DecState where
  heap : Heap Id := []
  shared : List (Bytes × Bytes) := []
  root : Root Id := {}
  warns : List CodecWarn := []

/-- How a chunk ends: with the next chunk, with the end of the loop, with `return nil, warns, err`,
or with a panic. -/
inductive Flow where
  | next
  | stop
  | fail (e : Err)
  | panic
  deriving DecidableEq, Repr

/-- `x < 0 || uint32(x) >= bound`. -/
def outOfBounds (x : Id) (bound : BitVec 32) : Bool := x.msb || decide (bound.toNat ≤ x.toNat)

/-- The loop over the instance ids of an INST chunk (rbxl/codec.go:65-81). -/
def instLoop (c : InstChunk) (instanceCount : BitVec 32) :
    Nat → List Id → Heap Id → Res (Heap Id)
  | _, [], h => .ok h
  | i, ref :: refs, h =>
    if outOfBounds ref instanceCount then .err (.other "instance id out of bounds")
    else if (h.get? ref).isSome then .err (.other "duplicate instance id")
    else if c.isService then
      match c.getService[i]? with
      | none => .panic
      | some s => instLoop c instanceCount (i + 1) refs
          (h.set ref { className := c.className, isService := s == 1#8 })
    else instLoop c instanceCount (i + 1) refs (h.set ref { className := c.className })

/-- `instLookup[ref]` as a pointer: nil when the id is unknown. -/
def lookupRef (h : Heap Id) (ref : Id) : Option Id := if (h.get? ref).isSome then some ref else none

/-- The values of a property array (rbxl/codec.go:109-143). A nil value (`none`) cannot be stored
by the code paths that produce it: `rbxfile.Some(nil)` panics. -/
def propValue (quat : Quat) (h : Heap Id) (shared : List (Bytes × Bytes)) (a : Arr) (i : Nat) :
    Res (Value Id) :=
  match a with
  | .plain .reference vs =>
    match vs[i]? with
    | some v => .ok (.reference (lookupRef h v.refNum))
    | none => .panic
  | .plain .sharedString vs =>
    match vs[i]? with
    | some (.sharedString k) =>
      match shared[k.toNat]? with
      | some s => .ok (.sharedString s.2)
      | none => .ok (.sharedString [])
    | _ => .panic
  | .plain _ vs =>
    match vs[i]? with
    | some v => match decodeValue quat v with
      | some x => .ok x
      | none => .panic
    | none => .panic
  | .optNil _ => .panic
  | .optional values present =>
    match present[i]? with
    | none => .panic
    | some true => do
      match ← values.get i with
      | some v => match decodeValue quat v with
        | some x => .ok (.optional x.type (some x))
        | none => .panic
      | none => .panic
    | some false => .ok (.optional values.type.valueType none)

/-- The loop setting a property on the instances of a class (rbxl/codec.go:109-143);
`k` is the number of properties set so far. -/
def propLoop (value : Nat → Res (Value Id)) (name : Bytes) : Nat → List Id → Heap Id → Res (Heap Id)
  | _, [], h => .ok h
  | k, id :: ids, h =>
    match value k with
    | .panic => .panic
    | .err e => .err e
    | .ok v =>
      match h.get? id with
      | none => .panic
      | some inst => propLoop value name (k + 1) ids
          (h.set id { inst with properties := inst.properties.set name v })

/-- The loop of a PRNT chunk (rbxl/codec.go:154-177). -/
def parentLoop (ic : Nat) (instanceCount : BitVec 32) :
    Nat → List (Id × Id) → DecState → DecState × Flow
  | _, [], st => (st, .next)
  | i, (child, parent) :: rest, st =>
    if outOfBounds child instanceCount then (st, .fail (.other "child id out of bounds"))
    else if (st.heap.get? child).isNone then
      parentLoop ic instanceCount (i + 1) rest { st with warns := st.warns ++ [.childMissing ic i] }
    else if parent = -1 then
      parentLoop ic instanceCount (i + 1) rest
        { st with root := { st.root with instances := st.root.instances ++ [child] } }
    else
      match st.heap.get? parent with
      | none => parentLoop ic instanceCount (i + 1) rest st
      | some inst =>
        parentLoop ic instanceCount (i + 1) rest
          { st with heap := st.heap.set parent { inst with children := inst.children ++ [child] } }

/-- One chunk of `robloxCodec.Decode`: the switch (rbxl/codec.go:54-193). `ic` is the position of
the chunk, which also serves as its identity. -/
def codecStep (quat : Quat) (f : FormatModel) (ic : Nat) (st : DecState) : Body → DecState × Flow
  | .inst c =>
    if outOfBounds c.classID f.classCount then (st, .fail (.other "class index out of bounds"))
    else if c.isService && decide (c.ids.length ≠ c.getService.length) then
      (st, .fail (.other "GetService array length"))
    else
      match instLoop c f.instanceCount 0 c.ids st.heap with
      | .panic => (st, .panic)
      | .err e => (st, .fail e)
      | .ok h =>
        if (f.groupLookup.get? c.classID).map Prod.fst ≠ some ic then
          (st, .fail (.other "invalid class index"))
        else ({ st with heap := h }, .next)
  | .prop c =>
    if outOfBounds c.classID f.classCount then (st, .fail (.other "class index out of bounds"))
    else
      match f.groupLookup.get? c.classID with
      | none => ({ st with warns := st.warns ++ [.unknownClass ic] }, .next)
      | some (_, inst) =>
        match c.props with
        | none => ({ st with warns := st.warns ++ [.noValueType ic] }, .next)
        | some a =>
          if a.len ≠ inst.ids.length then (st, .fail (.other "length of properties array"))
          else
            match propLoop (propValue quat st.heap st.shared a) c.name 0 inst.ids st.heap with
            | .panic => (st, .panic)
            | .err e => (st, .fail e)
            | .ok h => ({ st with heap := h }, .next)
  | .parent c =>
    if c.version ≠ 0#8 then (st, .fail (.other "unrecognized parent link format"))
    else if c.parents.length ≠ c.children.length then (st, .fail (.other "errParentArray"))
    else parentLoop ic f.instanceCount 0 (c.children.zip c.parents) st
  | .metadata vs =>
    ({ st with root := { st.root with
        metadata := vs.foldl (fun m kv => m.set kv.1 kv.2) st.root.metadata } }, .next)
  | .shared c => ({ st with shared := c.values }, .next)
  | .end_ _ => (st, .stop)
  | .unknown _ _ => (st, .next)
  | .errored _ _ => (st, .next)

/-- The chunk loop of `robloxCodec.Decode`. -/
def codecLoop (quat : Quat) (f : FormatModel) : Nat → List Chunk → DecState → DecState × Flow
  | _, [], st => (st, .next)
  | ic, c :: cs, st =>
    match codecStep quat f ic st c.body with
    | (st, .next) => codecLoop quat f (ic + 1) cs st
    | r => r

/-- `robloxCodec.Decode` (rbxl/codec.go:39-197): warnings and result. -/
def codecDecode (quat : Quat) (f : FormatModel) : List CodecWarn × Res (Heap Id × Root Id) :=
  match codecLoop quat f 0 f.chunks {} with
  | (st, .fail e) => (st.warns, .err e)
  | (st, .panic) => (st.warns, .panic)
  | (st, _) => (st.warns, .ok (st.heap, st.root))

/-- The result of `Decoder.Decode`: either content handed to the XML decoder or a tree. -/
inductive Out where
  | xml (content : Bytes)
  | tree (heap : Heap Id) (root : Root Id)
  deriving Repr

/-- `Decoder.Decode` (rbxl/decoder.go:38-64), up to the call of the XML decoder: the warnings of the
file, those of the codec, the statistics, and the result. -/
structure DecodeOut where
  warns : List Warn
  codecWarns : List CodecWarn
  stats : Stats
  result : Res Out

/-- `Decoder.Decode` (rbxl/decoder.go:38-64). -/
def decodeRoot (lz : LZ4) (slack : Bytes → Nat) (quat : Quat) (noXML : Bool) (b : Bytes) :
    DecodeOut :=
  match decodeFile lz slack noXML false b with
  | (ws, s, .panic) => ⟨ws, [], s, .panic⟩
  | (ws, s, .err e) => ⟨ws, [], s, .err e⟩
  | (ws, s, .ok (.xml c)) => ⟨ws, [], s, .ok (.xml c)⟩
  | (ws, s, .ok (.model f)) =>
    let r := codecDecode quat f
    ⟨ws, r.1, s, do let (h, root) ← r.2; pure (.tree h root)⟩

end Rbxl

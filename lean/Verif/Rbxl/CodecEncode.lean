import Verif.Go.Sort
import Verif.Rbxl.CodecDecode
/-!
# Encoding a tree into a binary model (`robloxCodec.Encode`, rbxl/codec.go:426-740)

Pointers to instances have any type `ρ`; a pointer outside the heap is a nil pointer. `hash` stands
for the first 16 bytes of blake2b-256. The order in which Go iterates over maps is the parameter
`it`, `sort.Sort` the parameter `srt`. The warnings are not modelled: `Encoder.Encode` overwrites
them with those of `Encoder.encode` (rbxl/encoder.go:29-36).
-/
namespace Rbxl
open Go Rbxfile

variable {ρ : Type} [DecidableEq ρ]

/-- `addInstance` (rbxl/codec.go:447-462). `acc` is `instList` (with the instances pointed to); a
pointer is in `refs` if it is nil or in `instList`. The recursion depth is bounded by the number of
instances because every call adds one: `fuel` larger than the heap is never exhausted
(`addInst_ok`). -/
def addInst (h : Heap ρ) : Nat → ρ → Map ρ (Inst ρ) → Res (Map ρ (Inst ρ))
  | 0, _, _ => .panic
  | fuel + 1, p, acc =>
    if (acc.get? p).isSome then .ok acc
    else
      match h.get? p with
      | none => .ok acc
      | some inst => inst.children.foldlM (fun acc c => addInst h fuel c acc) (acc ++ [(p, inst)])

/-- `instList` (rbxl/codec.go:464-468). -/
def instList (h : Heap ρ) (roots : List ρ) : Res (Map ρ (Inst ρ)) :=
  roots.foldlM (fun acc p => addInst h (h.length + 1) p acc) []

/-- `refs[p]`, or `nilInstance` if there is none, as an `int32` (rbxl/codec.go:609-619, 672-677):
the position in `instList`. -/
def refNum (L : Map ρ (Inst ρ)) : Option ρ → BitVec 32
  | none => -1
  | some p => match (L.map Prod.fst).idxOf? p with
    | some i => BitVec.ofNat 32 i
    | none => -1

/-- One instance of the grouping loop (rbxl/codec.go:471-492). -/
def groupStep (place : Bool) (m : Map Bytes InstChunk) (x : Inst ρ × Nat) : Map Bytes InstChunk :=
  let c := (m.get? x.1.className).getD ⟨0, x.1.className, [], false, []⟩
  let ids := c.ids ++ [BitVec.ofNat 32 x.2]
  m.set x.1.className
    (if place && x.1.isService then
      { c with ids := ids, isService := true, getService := c.getService ++ [1#8] }
    else { c with ids := ids, getService := c.getService ++ [0#8] })

/-- `instChunkMap` (rbxl/codec.go:470-492). -/
def groupClasses (place : Bool) (insts : List (Inst ρ)) : Map Bytes InstChunk :=
  insts.zipIdx.foldl (groupStep place) []

/-- `instChunkList` (rbxl/codec.go:494-504) with the class ids assigned in
rbxl/codec.go:508-509. -/
def classList (it : Iter) (srt : Sorter) (place : Bool) (insts : List (Inst ρ)) : List InstChunk :=
  ((srt.run (fun a b => bytesLt a.className b.className)
    (it.run [0] ((groupClasses place insts).map Prod.snd))).zipIdx).map
    fun c => { c.1 with classID := BitVec.ofNat 32 c.2 }

/-- `instList[ref]` for the instances of a chunk; an index out of range panics. -/
def instsOf (insts : List (Inst ρ)) : List (BitVec 32) → Res (List (Inst ρ))
  | [] => .ok []
  | r :: rs =>
    if r.msb then .panic
    else
      match insts[r.toNat]? with
      | none => .panic
      | some i => do
        let is ← instsOf insts rs
        pure (i :: is)

/-- Add the keys not yet present. -/
def addNames (acc : List Bytes) (ks : List Bytes) : List Bytes :=
  ks.foldl (fun acc k => if k ∈ acc then acc else acc ++ [k]) acc

/-- The keys of `propChunkMap` (rbxl/codec.go:511-525). -/
def propNames (it : Iter) (cls : Nat) (insts : List (Inst ρ)) : List Bytes :=
  insts.zipIdx.foldl (fun acc x => addNames acc (it.run [1, cls, x.2] x.1.properties.keys)) []

/-- The array created for a property: of a type, or an `arrayOptional` with an element type. -/
inductive Kind where
  | plain (t : TypeID)
  | opt (t : TypeID)
  deriving DecidableEq, Repr

/-- The check of the second and later values of a property (rbxl/codec.go:561-575). `none`: the
chunk is dropped. Mismatched optional types leave `Properties` nil, on which the later loop
panics. -/
def planRest (t : TypeID) (k : Kind) : List (Value ρ) → Res (Option Kind)
  | [] => .ok (some k)
  | v :: vs =>
    if fromValueType v.type ≠ some t then .ok none
    else
      match v with
      | .optional typ _ =>
        if (fromValueType typ).map Kind.opt ≠ some k then .panic else planRest t k vs
      | _ => planRest t k vs

/-- The type check of a property name (rbxl/codec.go:527-587). For a value of unknown type, Go
evaluates `instList[-1]` while building the warning. The name comes from one of the instances, so
the empty case does not occur. -/
def planProp (place : Bool) (insts : List (Inst ρ)) (name : Bytes) : Res (Option Kind) :=
  match insts.filterMap fun i => i.properties.get? name with
  | [] => .panic
  | v :: vs =>
    match fromValueType v.type with
    | none => .panic
    | some t =>
      if !place && t = .uniqueId then .ok none
      else
        match v with
        | .optional typ _ =>
          match fromValueType typ with
          | none => .panic
          | some e => planRest t (.opt e) vs
        | _ => planRest t (.plain t) vs

/-- The loop `checkPropType` (rbxl/codec.go:527-587) over the names in iteration order. -/
def planAll (place : Bool) (insts : List (Inst ρ)) : List Bytes → Res (List (Bytes × Kind))
  | [] => .ok []
  | n :: ns => do
    let k ← planProp place insts n
    let ks ← planAll place insts ns
    pure (match k with
      | some k => (n, k) :: ks
      | none => ks)

/-- `sharedStrings` in the order of the indexes: hash and content. -/
abbrev Shared := List (Bytes × Bytes)

/-- The case of a shared string (rbxl/codec.go:620-634): its index and the map afterwards. -/
def intern (hash : Bytes → Bytes) (sh : Shared) (s : Bytes) : BitVec 32 × Shared :=
  match sh.findIdx? fun e => e.1 == hash s with
  | some i => (BitVec.ofNat 32 i, sh)
  | none => (BitVec.ofNat 32 sh.length, sh ++ [(hash s, s)])

/-- The value stored for an instance in an array of type `t` (rbxl/codec.go:606-647). For `plain`
arrays no value is an Optional (`planRest`). -/
def fillValue (hash : Bytes → Bytes) (ref : Option ρ → BitVec 32) (t : TypeID)
    (v : Option (Value ρ)) (sh : Shared) : Res (Val × Shared) :=
  let r : Option Val × Shared := match v with
    | none => (none, sh)
    | some (.reference p) => (some (.reference (ref p)), sh)
    | some (.sharedString s) =>
      let x := intern hash sh s
      (some (.sharedString x.1), x.2)
    | some v => (encodeValue v, sh)
  match r.1 with
  | some b =>
    if b.type = t then .ok (b, r.2)
    else match newValue t with
      | some d => .ok (d, r.2)
      | none => .panic
  | none => match newValue t with
    | some d => .ok (d, r.2)
    | none => .panic

/-- The loop over the instances for an array of type `t` (rbxl/codec.go:603-649). -/
def fillPlain (hash : Bytes → Bytes) (ref : Option ρ → BitVec 32) (t : TypeID) (name : Bytes) :
    List (Inst ρ) → Shared → Res (List Val × Shared)
  | [], sh => .ok ([], sh)
  | i :: is, sh => do
    let (v, sh) ← fillValue hash ref t (i.properties.get? name) sh
    let (vs, sh) ← fillPlain hash ref t name is sh
    pure (v :: vs, sh)

/-- `arrayOptional.Set` (rbxl/arrays.go:1421-1433) of the value of an instance
(rbxl/codec.go:635-647) in an array with elements of type `t`; a value of another type panics. -/
def fillOpt (t : TypeID) (v : Option (Value ρ)) : Res (Val × Bool) :=
  let b : Option Val := match v with
    | some (.optional _ (some v)) => encodeValue v
    | _ => none
  match b with
  | some b => if b.type = t then .ok (b, true) else .panic
  | none => match newValue t with
    | some d => .ok (d, false)
    | none => .panic

/-- The loop over the instances for an optional array (rbxl/codec.go:603-649). -/
def fillOpts (t : TypeID) (name : Bytes) : List (Inst ρ) → Res (List (Val × Bool))
  | [] => .ok []
  | i :: is => do
    let v ← fillOpt t (i.properties.get? name)
    let vs ← fillOpts t name is
    pure (v :: vs)

/-- Filling the array of a property (rbxl/codec.go:602-649). -/
def fillProp (hash : Bytes → Bytes) (ref : Option ρ → BitVec 32) (classID : BitVec 32)
    (insts : List (Inst ρ)) (p : Bytes × Kind) (sh : Shared) : Res (PropChunk × Shared) :=
  match p.2 with
  | .plain t => do
    let (vs, sh) ← fillPlain hash ref t p.1 insts sh
    pure (⟨classID, p.1, some (.plain t vs)⟩, sh)
  | .opt t => do
    let vs ← fillOpts t p.1 insts
    pure (⟨classID, p.1, some (.optional (.plain t (vs.map Prod.fst)) (vs.map Prod.snd))⟩, sh)

/-- The loop over the property chunks of a class (rbxl/codec.go:601-650). -/
def fillProps (hash : Bytes → Bytes) (ref : Option ρ → BitVec 32) (classID : BitVec 32)
    (insts : List (Inst ρ)) : List (Bytes × Kind) → Shared → Res (List PropChunk × Shared)
  | [], sh => .ok ([], sh)
  | p :: ps, sh => do
    let (c, sh) ← fillProp hash ref classID insts p sh
    let (cs, sh) ← fillProps hash ref classID insts ps sh
    pure (c :: cs, sh)

/-- The property chunks planned for a class, sorted by name (rbxl/codec.go:511-599). `i` is the
position of the class. -/
def classProps (it : Iter) (srt : Sorter) (place : Bool) (i : Nat) (insts : List (Inst ρ)) :
    Res (List (Bytes × Kind)) := do
  let ps ← planAll place insts (it.run [2, i] (propNames it i insts))
  pure (srt.run (fun a b => bytesLt a.1 b.1) (it.run [3, i] ps))

/-- The loop over the classes (rbxl/codec.go:506-653). -/
def propChunks (it : Iter) (srt : Sorter) (hash : Bytes → Bytes) (place : Bool)
    (L : Map ρ (Inst ρ)) : Nat → List InstChunk → Shared → Res (List PropChunk × Shared)
  | _, [], sh => .ok ([], sh)
  | i, c :: cs, sh => do
    let insts ← instsOf (L.map Prod.snd) c.ids
    let ps ← classProps it srt place i insts
    let (xs, sh) ← fillProps hash (refNum L) c.classID insts ps sh
    let (ys, sh) ← propChunks it srt hash place L (i + 1) cs sh
    pure (xs ++ ys, sh)

/-- `recInst` (rbxl/codec.go:665-679): the pairs of an instance and its parent, in the order in
which they are stored. A nil instance panics; a cycle recurses forever, which the model shows as
`panic` when the fuel, larger than the number of instances, is exhausted. -/
def recInst (h : Heap ρ) : Nat → Option ρ → ρ → Res (List (ρ × Option ρ))
  | 0, _, _ => .panic
  | fuel + 1, parent, p =>
    match h.get? p with
    | none => .panic
    | some inst => do
      let below ← inst.children.foldlM (fun acc c => do
        let l ← recInst h fuel (some p) c
        pure (acc ++ l)) []
      pure (below ++ [(p, parent)])

/-- The parent chunk (rbxl/codec.go:655-683). The arrays have one entry per instance: more links
than that are an index out of range. -/
def parentLinks (h : Heap ρ) (L : Map ρ (Inst ρ)) (roots : List ρ) : Res ParentChunk :=
  if L.length = 0 then .ok ⟨0, [], []⟩
  else do
    let links ← roots.foldlM (fun acc p => do
      let l ← recInst h (h.length + 1) none p
      pure (acc ++ l)) []
    if L.length < links.length then .panic
    else
      let pad := List.replicate (L.length - links.length) 0#32
      pure ⟨0, links.map (fun x => refNum L (some x.1)) ++ pad,
        links.map (fun x => refNum L x.2) ++ pad⟩

/-- `sortMetaData.Less` (rbxl/codec.go:771-773): the key of one entry is compared with the value of
the other. -/
def metaLess (a b : Bytes × Bytes) : Bool := bytesLt a.1 b.2

/-- `robloxCodec.Encode` (rbxl/codec.go:426-740). -/
def codecEncode (it : Iter) (srt : Sorter) (hash : Bytes → Bytes) (place : Bool) (h : Heap ρ)
    (root : Root ρ) : Res FormatModel := do
  let L ← instList h root.instances
  let classes := classList it srt place (L.map Prod.snd)
  let (props, shared) ← propChunks it srt hash place L 0 classes []
  let parent ← parentLinks h L root.instances
  let metas : List Chunk := if root.metadata.length = 0 then []
    else [⟨.metadata (srt.run metaLess (it.run [4] root.metadata)), true⟩]
  let shareds : List Chunk := if shared.length = 0 then []
    else [⟨.shared ⟨0, shared.map fun e => (List.replicate 16 0#8, e.2)⟩, true⟩]
  pure {
    version := 0
    classCount := BitVec.ofNat 32 classes.length
    instanceCount := BitVec.ofNat 32 L.length
    chunks := metas ++ shareds ++ classes.map (fun c => ⟨.inst c, true⟩) ++
      props.map (fun c => ⟨.prop c, true⟩) ++ [⟨.parent parent, true⟩, ⟨.end_ endTag, false⟩]
    trailing := []
    groupLookup := [] }

/-- `Encoder.Encode` (rbxl/encoder.go:23-36): the bytes written. -/
def encodeRoot (lz : LZ4) (uncompressed : Bool) (it : Iter) (srt : Sorter) (hash : Bytes → Bytes)
    (place : Bool) (h : Heap ρ) (root : Root ρ) : Res Bytes := do
  let f ← codecEncode it srt hash place h root
  encodeFile lz uncompressed f

end Rbxl

import Verif.Rbxl.Model
import Verif.Rbxl.CodecValues
/-!
# Chunks that cannot be decoded: the state of the chunk as the error occurred

When the payload of a chunk cannot be decoded, the chunk is kept in `chunkErrored` as far as it was decoded
(rbxl/decoder.go:246-254, rbxl/model.go:293-306), and `Dump` shows it. The functions below give that state; when there is no
error they give the chunk (`partBody_ok`).
-/
namespace Rbxl
open Go

/-- A slice of `n` elements of which the first ones are set. -/
def padTo {α : Type} (n : Nat) (zero : α) (l : List α) : List α := l ++ List.replicate (n - l.length) zero

/-- The elements that the loop of `arrayFromBytes` sets before an error (rbxl/arrays.go:151-160). -/
def elemsPart (t : TypeID) : Nat → Bytes → List Val
  | 0, _ => []
  | n + 1, b =>
    match Val.fromBytes t b with
    | .ok (v, nn) => v :: elemsPart t n (b.drop nn)
    | _ => []

/-- The elements that `arrayReference.FromBytes` sets before an error (rbxl/arrays.go:1066-1081). -/
def refsPart : Nat → BitVec 32 → Bytes → List Val
  | 0, _, _ => []
  | n + 1, prev, b =>
    match Val.fromBytes .reference b with
    | .ok (v, nn) => .reference (v.refNum + prev) :: refsPart n (v.refNum + prev) (b.drop nn)
    | _ => []

/-- The specials and rotations that the first loop of `arrayCFrame.FromBytes` sets before an error (rbxl/arrays.go:877-895), and
what remains after the loop if there is none. -/
def cframeHeadsPart : Nat → Bytes → List (Byte × Rot) × Option Bytes
  | 0, b => ([], some b)
  | n + 1, b =>
    match checkLengthCond condSizeCFrame b with
    | .ok (cond, b, _) =>
      if cond = 0#8 then
        match rdRot b with
        | .ok (rot, b) => ((cond, rot) :: (cframeHeadsPart n b).1, (cframeHeadsPart n b).2)
        | _ => ([], none)
      else ((cond, Rot.zero) :: (cframeHeadsPart n b).1, (cframeHeadsPart n b).2)
    | _ => ([], none)

/-- The same for `arrayCFrameQuat.FromBytes` (rbxl/arrays.go:956-973). -/
def cframeQuatHeadsPart : Nat → Bytes → List (Byte × F32 × F32 × F32 × F32) × Option Bytes
  | 0, b => ([], some b)
  | n + 1, b =>
    match checkLengthCond condSizeCFrameQuat b with
    | .ok (cond, b, _) =>
      if cond = 0#8 then
        match rdQuat b with
        | .ok (q, b) => ((cond, q) :: (cframeQuatHeadsPart n b).1, (cframeQuatHeadsPart n b).2)
        | _ => ([], none)
      else ((cond, 0, 0, 0, 0) :: (cframeQuatHeadsPart n b).1, (cframeQuatHeadsPart n b).2)
    | _ => ([], none)

/-- The positions that the second loop of `arrayCFrame.FromBytes` sets before an error (rbxl/arrays.go:899-908). -/
def positionsPart : Nat → Bytes → List Vec3
  | 0, _ => []
  | n + 1, b =>
    match vec3From b with
    | .ok (v, nn) => v :: positionsPart n (b.drop nn)
    | _ => []

/-- The positions after the heads were read: of the bytes that remain, if the deinterleaving of `b[:n*12]` stays within them
(rbxl/arrays.go:896-908). Otherwise it mixes in bytes from beyond the end of the slice, which are not modelled: `spill` gives the bytes
that remain then. -/
def framePositions (spill : Nat → Bytes → Bytes) (n : Nat) : Option Bytes → List Vec3
  | none => []
  | some r =>
    if n * 12 ≤ r.length then
      match deinterleave (r.take (n * 12)) 12 with
      | .ok d => positionsPart n (d ++ r.drop (n * 12))
      | _ => []
    else positionsPart n (spill n r)

/-- The elements of an array of `n` elements of a type other than Optional as they are when `arrayFromBytes` returns
(rbxl/arrays.go:133-162). -/
def plainPart (spill : Nat → Bytes → Bytes) (t : TypeID) (n : Nat) (b : Bytes) : List Val :=
  match (if interleaved t then
      match t.size with
      | none => .panic
      | some size => deinterleave b size
    else pure b : Res Bytes) with
  | .ok b =>
    match t with
    | .cframe =>
      let hs := padTo n (0#8, Rot.zero) (cframeHeadsPart n b).1
      let ps := padTo n ⟨0, 0, 0⟩ (framePositions spill n (cframeHeadsPart n b).2)
      (hs.zip ps).map (fun x => .cframe x.1.1 x.1.2 x.2)
    | .cframeQuat =>
      let hs := padTo n (0#8, 0, 0, 0, 0) (cframeQuatHeadsPart n b).1
      let ps := padTo n ⟨0, 0, 0⟩ (framePositions spill n (cframeQuatHeadsPart n b).2)
      (hs.zip ps).map (fun x => .cframeQuat x.1.1 x.1.2.1 x.1.2.2.1 x.1.2.2.2.1 x.1.2.2.2.2 x.2)
    | .reference => padTo n (.reference 0) (refsPart n 0 b)
    | t => padTo n ((newValue t).getD default) (elemsPart t n b)
  | _ => List.replicate n ((newValue t).getD default)

/-- `Present` of an `arrayOptional` when `expectArrayFromBytes` returns (rbxl/arrays.go:185-206). -/
def presentPart (n : Nat) : Bytes → List Bool
  | [] => List.replicate n false
  | tb :: b =>
    if TypeID.validByte tb = false then List.replicate n false
    else if tb ≠ TypeID.bool.toByte then List.replicate n false
    else padTo n false ((elemsPart .bool n b).map fun v => match v with | .bool x => x | _ => false)

/-- The array when `typeArrayFromBytes` returns (rbxl/arrays.go:164-183, 1451-1468); `none` is nil. -/
def arrPart (spill : Nat → Bytes → Bytes) (slack : Nat) (n : Nat) : Bytes → Option Arr
  | [] => none
  | tb :: rest =>
    if TypeID.validByte tb = false then none
    else
      match TypeID.ofByte tb with
      | none => none
      | some .optional =>
        match typeArrayFrom slack n rest with
        | .ok (values, nn, rest) => some (.optional values (presentPart n (rest.drop nn)))
        | _ =>
          match arrPart spill slack n rest with
          | none => some (.optNil (List.replicate n false))
          | some a => some (.optional a (List.replicate n false))
      | some t => some (.plain t (plainPart spill t n rest))

/-- The ids when `refArrayFromBytes` returns or the bytes are missing, and what remains if there is no error
(rbxl/model.go:387-402, 528-543, 545-560): the slice keeps its zeros after an error. -/
def refsLeft (n : BitVec 32) (b : Bytes) : List (BitVec 32) × Option Bytes :=
  match readRefs n b with
  | .ok (ids, r) => (ids, some r)
  | _ => (List.replicate n.toNat 0, none)

/-- `chunkInstance` when `Decode` returns (rbxl/model.go:365-412). -/
def partInst (b : Bytes) : InstChunk :=
  match num32 b with
  | .ok (classID, b) =>
    match readString b with
    | .ok (className, b) =>
      match num8 b with
      | .ok (s, b) =>
        match num32 b with
        | .ok (n, b) =>
          match refsLeft n b with
          | (ids, none) => ⟨classID, className, ids, s != 0#8, []⟩
          | (ids, some b) => ⟨classID, className, ids, s != 0#8, if s != 0#8 then padTo n.toNat 0#8 (b.take n.toNat) else []⟩
        | _ => ⟨classID, className, [], s != 0#8, []⟩
      | _ => ⟨classID, className, [], false, []⟩
    | _ => ⟨classID, [], [], false, []⟩
  | _ => ⟨0, [], [], false, []⟩

/-- `chunkParent` when `Decode` returns (rbxl/model.go:517-564). -/
def partParent (b : Bytes) : ParentChunk :=
  match num8 b with
  | .ok (version, b) =>
    match num32 b with
    | .ok (n, b) =>
      match refsLeft n b with
      | (cs, none) => ⟨version, cs, []⟩
      | (cs, some b) => ⟨version, cs, (refsLeft n b).1⟩
    | _ => ⟨version, [], []⟩
  | _ => ⟨0, [], []⟩

/-- `chunkProperty` when `Decode` returns (rbxl/model.go:619-656). -/
def partProp (spill : Nat → Bytes → Bytes) (slack : Bytes → Nat) (groups : Map (BitVec 32) (Nat × InstChunk)) (b : Bytes) : PropChunk :=
  match num32 b with
  | .ok (classID, b) =>
    match groups.get? classID with
    | none => ⟨classID, [], none⟩
    | some (_, inst) =>
      match readString b with
      | .ok (name, raw) => ⟨classID, name, if raw = [] then none else arrPart spill (slack raw) inst.ids.length raw⟩
      | _ => ⟨classID, [], none⟩
  | _ => ⟨0, [], none⟩

/-- The pairs that the loop of `chunkMeta.Decode` sets (rbxl/model.go:709-716). -/
def pairsPart : Nat → Bytes → List (Bytes × Bytes)
  | 0, _ => []
  | n + 1, b =>
    match readString b with
    | .ok (k, b) =>
      match readString b with
      | .ok (v, b) => (k, v) :: pairsPart n b
      | _ => [(k, [])]
    | _ => []

/-- `chunkMeta` when `Decode` returns (rbxl/model.go:700-719). -/
def partMeta (b : Bytes) : List (Bytes × Bytes) :=
  match num32 b with
  | .ok (n, b) => padTo n.toNat ([], []) (pairsPart n.toNat b)
  | _ => []

/-- The shared strings that the loop of `chunkSharedStrings.Decode` sets (rbxl/model.go:774-785). -/
def sharedPart : Nat → Bytes → List (Bytes × Bytes)
  | 0, _ => []
  | n + 1, b =>
    match takeN 16 b with
    | .ok (h, b) =>
      match readString b with
      | .ok (v, b) => (h, v) :: sharedPart n b
      | _ => [(h, [])]
    | _ => [(padTo 16 0#8 (b.take 16), [])]

/-- `chunkSharedStrings` when `Decode` returns (rbxl/model.go:761-788). -/
def partShared (b : Bytes) : SharedChunk :=
  match num32 b with
  | .ok (version, b) =>
    match num32 b with
    | .ok (n, b) => ⟨version, padTo n.toNat (List.replicate 16 0#8, []) (sharedPart n.toNat b)⟩
    | _ => ⟨version, []⟩
  | _ => ⟨0, []⟩

/-- The chunk when `Decode` returns (rbxl/decoder.go:211-242). -/
def partBody (spill : Nat → Bytes → Bytes) (slack : Bytes → Nat) (groups : Map (BitVec 32) (Nat × InstChunk)) (sig : BitVec 32)
    (b : Bytes) : Body :=
  if sig = sigMETA then .metadata (partMeta b)
  else if sig = sigSSTR then .shared (partShared b)
  else if sig = sigINST then .inst (partInst b)
  else if sig = sigPROP then .prop (partProp spill slack groups b)
  else if sig = sigPRNT then .parent (partParent b)
  else if sig = sigEND then .end_ b
  else .unknown sig b

/-- The chunk as far as it was decoded (rbxl/model.go:293-306); a chunk that is not errored was decoded completely. -/
def Body.decoded (spill : Nat → Bytes → Bytes) (slack : Bytes → Nat) (groups : Map (BitVec 32) (Nat × InstChunk)) : Body → Body
  | .errored sig bytes => partBody spill slack groups sig bytes
  | b => b

/-- `f.groupLookup[ch.ClassID] = &ch` for the `i`-th chunk (rbxl/decoder.go:225): errored chunks are not added. -/
def addGroup (i : Nat) (groups : Map (BitVec 32) (Nat × InstChunk)) : Body → Map (BitVec 32) (Nat × InstChunk)
  | .inst c => groups.set c.classID (i, c)
  | _ => groups

end Rbxl

import Verif.Rbxl.Values
import Verif.Rbxl.Interleave
/-!
# Property arrays of the binary format (rbxl/arrays.go)
-/
namespace Rbxl
open Go

/-- The Go types implementing `array`.  `plain t vs` stands for the slice type of element type `t`
(`arrayString`, `arrayBool`, ...); Go's typing guarantees that all elements have type `t`.
`optNil` is an `arrayOptional` whose `Values` is nil, `optional` one whose `Values` is set
(rbxl/arrays.go:1395-1398). -/
inductive Arr where
  | plain (t : TypeID) (vs : List Val)
  | optNil (present : List Bool)
  | optional (values : Arr) (present : List Bool)
  deriving DecidableEq, Repr, Inhabited

namespace Arr

/-- `array.Type`. -/
def type : Arr → TypeID
  | plain t _ => t
  | optNil _ => .optional
  | optional _ _ => .optional

/-- `array.Len` (for optional: rbxl/arrays.go:1404-1409). -/
def len : Arr → Nat
  | plain _ vs => vs.length
  | optNil _ => 0
  | optional a _ => a.len

end Arr

/-- The types whose array implements `interleaver` (the `Interleaved()` methods of
rbxl/arrays.go). -/
def interleaved : TypeID → Bool
  | .int | .float | .udim | .udim2 | .brickColor | .color3 | .vector2 | .vector3 | .token
  | .reference | .rect | .color3uint8 | .int64 | .sharedString | .uniqueId => true
  | _ => false

/-! ## Encoding -/

/-- `interleave(p, zVector3)` with the result discarded (rbxl/arrays.go:871, 950). -/
def interleaveIgnoringError (p : Bytes) (size : Nat) : Res Bytes :=
  match interleave p size with
  | .ok q => .ok q
  | .err _ => .ok p
  | .panic => .panic

/-- The part of a CFrame written before the positions (rbxl/arrays.go:863-868, 944-947). -/
def Val.cframeHead : Val → Bytes
  | .cframe sp r _ => sp :: (if sp = 0#8 then r.bytes else [])
  | .cframeQuat sp x y z w _ => sp :: (if sp = 0#8 then quatBytes x y z w else [])
  | _ => []

/-- The position of a CFrame. -/
def Val.cframePos : Val → Vec3
  | .cframe _ _ p => p
  | .cframeQuat _ _ _ _ _ p => p
  | _ => ⟨0, 0, 0⟩

/-- `arrayCFrame.Bytes` / `arrayCFrameQuat.Bytes` (rbxl/arrays.go:860-874, 941-953). -/
def cframesBytes (vs : List Val) : Res Bytes := do
  let p ← interleaveIgnoringError (vs.flatMap fun v => v.cframePos.bytes) 12
  pure (vs.flatMap Val.cframeHead ++ p)

/-- The number held by a reference value. -/
def Val.refNum : Val → BitVec 32
  | .reference n => n
  | _ => 0

/-- The loop of `arrayReference.Bytes` (rbxl/arrays.go:1056-1062); subtraction wraps. -/
def refDeltas (prev : BitVec 32) : List (BitVec 32) → List (BitVec 32)
  | [] => []
  | v :: vs => (v - prev) :: refDeltas v vs

/-- `arrayReference.Bytes` (rbxl/arrays.go:1049-1064). -/
def refsBytes : List (BitVec 32) → Bytes
  | [] => []
  | v :: vs => (Val.reference v).bytes ++ (refDeltas v vs).flatMap fun d => (Val.reference d).bytes

/-- `array.Bytes` for all types but Optional. -/
def plainBytes (t : TypeID) (vs : List Val) : Res Bytes :=
  match t with
  | .cframe => cframesBytes vs
  | .cframeQuat => cframesBytes vs
  | .reference => .ok (refsBytes (vs.map Val.refNum))
  | _ => .ok (vs.flatMap Val.bytes)

/-- `arrayToBytes` for all types but Optional (rbxl/arrays.go:98-113). -/
def plainToBytes (t : TypeID) (vs : List Val) : Res Bytes := do
  let r ← plainBytes t vs
  if interleaved t then
    match t.size with
    | none => .panic
    | some size => interleave r size
  else pure r

/-- `arrayToBytes` (rbxl/arrays.go:98-113) and, for Optional, `arrayOptional.Bytes`
(rbxl/arrays.go:1442-1449) with `typeArrayToBytes` (rbxl/arrays.go:115-118).
In Go `arrayOptional.Bytes` discards the error of `typeArrayToBytes`; the only possible one is
interleaving a length that is not a multiple of the size, which does not happen because every
element has that size. The model propagates it. -/
def Arr.toBytes : Arr → Res Bytes
  | .plain t vs => plainToBytes t vs
  | .optNil _ => .ok []
  | .optional a present => do
    let x ← a.toBytes
    let y ← plainToBytes .bool (present.map Val.bool)
    pure (a.type.toByte :: x ++ TypeID.bool.toByte :: y)

/-- `typeArrayToBytes` (rbxl/arrays.go:115-118). -/
def typeArrayToBytes (a : Arr) : Res Bytes := do
  let x ← a.toBytes
  pure (a.type.toByte :: x)

/-- `refArrayToBytes` (rbxl/arrays.go:120-128); the error is discarded, leaving a nil slice. -/
def refArrayToBytes (refs : List (BitVec 32)) : Res Bytes :=
  match plainToBytes .reference (refs.map Val.reference) with
  | .ok b => .ok b
  | .err _ => .ok []
  | .panic => .panic

/-! ## Decoding -/

/-- The element loop of `arrayFromBytes` (rbxl/arrays.go:151-160). `i` is the element index. -/
def elemsFrom (t : TypeID) : Nat → Nat → Bytes → Res (List Val × Nat)
  | _, 0, _ => .ok ([], 0)
  | i, n + 1, b => do
    let (v, nn) ← (Val.fromBytes t b).mapErr (.index i)
    let (vs, m) ← elemsFrom t (i + 1) n (b.drop nn)
    pure (v :: vs, nn + m)

/-- The loop of `arrayReference.FromBytes` (rbxl/arrays.go:1066-1081); addition wraps.
`prev` is `a[i-1]`, or 0 for the first element. -/
def refsFrom : Nat → Nat → BitVec 32 → Bytes → Res (List Val × Nat)
  | _, 0, _, _ => .ok ([], 0)
  | i, n + 1, prev, b => do
    let (v, nn) ← (Val.fromBytes .reference b).mapErr (.index i)
    let v := v.refNum + prev
    let (vs, m) ← refsFrom (i + 1) n v (b.drop nn)
    pure (.reference v :: vs, nn + m)

/-- The first loop of `arrayCFrame.FromBytes` (rbxl/arrays.go:877-895). Returns the specials and
rotations, the remaining buffer and the number of bytes read. -/
def cframeHeads : Nat → Nat → Bytes → Res (List (Byte × Rot) × Bytes × Nat)
  | _, 0, b => .ok ([], b, 0)
  | i, n + 1, b => do
    let (cond, b, _) ← (checkLengthCond condSizeCFrame b).mapErr (.index i)
    let ((rot, k), b) ← (if cond = 0#8 then do
        let (rot, b) ← rdRot b
        pure ((rot, 1 + 36), b)
      else pure ((Rot.zero, 1), b) : Res ((Rot × Nat) × Bytes))
    let (hs, b, m) ← cframeHeads (i + 1) n b
    pure ((cond, rot) :: hs, b, k + m)

/-- The first loop of `arrayCFrameQuat.FromBytes` (rbxl/arrays.go:956-973). -/
def cframeQuatHeads : Nat → Nat → Bytes → Res (List (Byte × F32 × F32 × F32 × F32) × Bytes × Nat)
  | _, 0, b => .ok ([], b, 0)
  | i, n + 1, b => do
    let (cond, b, _) ← (checkLengthCond condSizeCFrameQuat b).mapErr (.index i)
    let ((q, k), b) ← (if cond = 0#8 then do
        let (q, b) ← rdQuat b
        pure ((q, 1 + 16), b)
      else pure (((0, 0, 0, 0), 1), b) : Res (((F32 × F32 × F32 × F32) × Nat) × Bytes))
    let (hs, b, m) ← cframeQuatHeads (i + 1) n b
    pure ((cond, q) :: hs, b, k + m)

/-- The second loop of `arrayCFrame.FromBytes` (rbxl/arrays.go:899-908). -/
def positionsFrom : Nat → Nat → Bytes → Res (List Vec3 × Nat)
  | _, 0, _ => .ok ([], 0)
  | i, n + 1, b => do
    let (v, nn) ← (vec3From b).mapErr (.index i)
    let (vs, m) ← positionsFrom (i + 1) n (b.drop nn)
    pure (v :: vs, nn + m)

/-- `deinterleave(b[:n*zVector3], zVector3)` (rbxl/arrays.go:896, 974): the first `12 n` bytes are
permuted in place. `slack` is `cap(b) - len(b)`: reslicing beyond the capacity panics; reslicing
beyond the length but within the capacity succeeds, and what it does to the bytes inside `b` is
irrelevant because reading the positions afterwards fails for lack of bytes (the model leaves `b`
unchanged in that case). -/
def deinterleavePrefix (slack : Nat) (b : Bytes) (n : Nat) : Res Bytes :=
  if n * 12 ≤ b.length then do
    let d ← deinterleave (b.take (n * 12)) 12
    pure (d ++ b.drop (n * 12))
  else if n * 12 ≤ b.length + slack then .ok b
  else .panic

/-- `arrayFromBytes` for all types but Optional (rbxl/arrays.go:133-162), with the custom decoders
`arrayCFrame.FromBytes`, `arrayCFrameQuat.FromBytes`, `arrayReference.FromBytes`.
Returns the elements, the number of bytes read, and the buffer as left by the in-place
deinterleaving. -/
def plainFrom (slack : Nat) (t : TypeID) (n : Nat) (b : Bytes) : Res (List Val × Nat × Bytes) := do
  let b ← (if interleaved t then
      match t.size with
      | none => .panic
      | some size => deinterleave b size
    else pure b : Res Bytes)
  match t with
  | .cframe =>
    let (hs, r, m) ← cframeHeads 0 n b
    let r' ← deinterleavePrefix slack r n
    let (ps, k) ← positionsFrom 0 n r'
    pure ((hs.zip ps).map (fun x => .cframe x.1.1 x.1.2 x.2), m + k, b.take m ++ r')
  | .cframeQuat =>
    let (hs, r, m) ← cframeQuatHeads 0 n b
    let r' ← deinterleavePrefix slack r n
    let (ps, k) ← positionsFrom 0 n r'
    pure ((hs.zip ps).map
      (fun x => .cframeQuat x.1.1 x.1.2.1 x.1.2.2.1 x.1.2.2.2.1 x.1.2.2.2.2 x.2), m + k,
      b.take m ++ r')
  | .reference =>
    let (vs, m) ← refsFrom 0 n 0 b
    pure (vs, m, b)
  | t =>
    let (vs, m) ← elemsFrom t 0 n b
    pure (vs, m, b)

/-- `expectArrayFromBytes(b, a.Present)` where `a.Present` is an `arrayBool` of length `n`
(rbxl/arrays.go:185-206). -/
def presentFrom (n : Nat) : Bytes → Res (List Bool × Nat)
  | [] => .err (.buflen 1 0)
  | tb :: b =>
    if TypeID.validByte tb = false then .err (.unknownType tb)
    else if tb ≠ TypeID.bool.toByte then .err (.other "expected type")
    else do
      let (vs, m) ← elemsFrom .bool 0 n b
      pure (vs.map (fun v => match v with | .bool x => x | _ => false), 1 + m)

/-- `typeArrayFromBytes` (rbxl/arrays.go:164-183) including, for Optional, `newArray`
(rbxl/arrays.go:260-329), `arrayFromBytes` and `arrayOptional.FromBytes` (rbxl/arrays.go:1451-1468).
Returns the array, the number of bytes read, and the buffer as left by in-place deinterleaving. -/
def typeArrayFrom (slack : Nat) (n : Nat) : Bytes → Res (Arr × Nat × Bytes)
  | [] => .err (.buflen 1 0)
  | tb :: rest =>
    if TypeID.validByte tb = false then .err (.unknownType tb)
    else
      match TypeID.ofByte tb with
      | none => .panic
      | some .optional => do
        let (values, nn, rest) ← typeArrayFrom slack n rest
        let (present, mm) ← presentFrom n (rest.drop nn)
        pure (.optional values present, 1 + nn + mm, tb :: rest)
      | some t => do
        let (vs, nn, rest) ← plainFrom slack t n rest
        pure (.plain t vs, 1 + nn, tb :: rest)

/-- `refArrayFromBytes` (rbxl/arrays.go:208-212). -/
def refArrayFrom (b : Bytes) (n : Nat) : Res (List (BitVec 32)) := do
  let (vs, _, _) ← plainFrom 0 .reference n b
  pure (vs.map Val.refNum)

end Rbxl

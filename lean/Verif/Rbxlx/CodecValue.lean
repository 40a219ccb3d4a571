import Verif.Go.FloatText
import Verif.Rbxlx.Document
import Verif.Rbxlx.Lines
import Verif.Rbxfile.Refs
/-!
# Values in the XML format: decoding (rbxlx/codec.go:190-1081)

A value that the decoder does not return (`ok` is false) is `none`. Warnings are not modelled.
`discard` is `DiscardInvalidProperties`. Conversions between floating point numbers and text are the
parameter `F`.
-/
namespace Rbxlx
open Go Rbxfile

/-- `getContent` (rbxlx/codec.go:1075-1081). -/
def getContent (t : Tag) : Bytes :=
  match t.head.cdata with
  | some c => c
  | none => t.head.text

/-- `strings.ToLower` on ASCII. Tags that were parsed have ASCII names only. -/
def toLower (s : Bytes) : Bytes :=
  s.map fun c => if 65 ≤ c.toNat ∧ c.toNat ≤ 90 then BitVec.ofNat 8 (c.toNat + 32) else c

/-- The table in `GetCanonType` (rbxlx/codec.go:333-397). -/
def canonTypes : List (Bytes × Ty) := [
  (str "axes", .axes), (str "binarystring", .binaryString), (str "bool", .bool),
  (str "brickcolor", .brickColor), (str "cframe", .cframe), (str "coordinateframe", .cframe),
  (str "color3", .color3), (str "content", .content), (str "double", .double), (str "faces", .faces),
  (str "float", .float), (str "int", .int), (str "protectedstring", .protectedString),
  (str "ray", .ray), (str "object", .reference), (str "ref", .reference), (str "string", .string),
  (str "token", .token), (str "udim", .udim), (str "udim2", .udim2), (str "vector2", .vector2),
  (str "vector2int16", .vector2int16), (str "vector3", .vector3), (str "vector3int16", .vector3int16),
  (str "numbersequence", .numberSequence), (str "colorsequence", .colorSequence),
  (str "numberrange", .numberRange), (str "rect", .rect), (str "rect2d", .rect),
  (str "physicalproperties", .physicalProperties), (str "color3uint8", .color3uint8),
  (str "int64", .int64), (str "sharedstring", .sharedString), (str "uniqueid", .uniqueId),
  (str "font", .font)]

/-- `GetCanonType` (rbxlx/codec.go:327-400): the type and whether it is optional. -/
def getCanonType (name : Bytes) : Ty × Bool :=
  let name := toLower name
  let optional := (str "optional").isPrefixOf name
  let name := if optional then name.drop 8 else name
  ((Map.get? canonTypes name).getD .invalid, optional)

/-! ## Components -/

/-- The kinds of pointers in `components` (rbxlx/codec.go:1003, 1017-1067). -/
inductive Comp where
  | u8 | i16 | i32 | f32 | style | weight | tag
  deriving DecidableEq, Repr

/-- What is stored through such a pointer. -/
inductive CompVal where
  | u8 (b : Byte)
  | i16 (n : BitVec 16)
  | i32 (n : BitVec 32)
  | f32 (f : F32)
  | style (b : Byte)
  | weight (n : BitVec 16)
  | tag (t : Tag)

/-- How reading a component ends: the loop goes on, or `getFrom` returns `ok`. -/
inductive CompRes where
  | next (v : Option CompVal)
  | stop (ok : Bool) (v : Option CompVal)

/-- The result of reading an integer component (rbxlx/codec.go:1018-1045, 1056-1065). -/
def intComp (r : Int × NumErr) (v : Int → CompVal) : CompRes :=
  match r.2 with
  | .none => .next (some (v r.1))
  | .range => .stop true (some (v r.1))
  | .syntax => .stop false (some (v r.1))

/-- The body of the loop of `getFrom` for a component (rbxlx/codec.go:1017-1067). -/
def readComp (F : FloatText) (k : Comp) (t : Tag) : CompRes :=
  match k with
  | .u8 => intComp (parseInt 32 (getContent t)) fun n => .u8 (BitVec.ofInt 8 n)
  | .i16 => intComp (parseInt 16 (getContent t)) fun n => .i16 (BitVec.ofInt 16 n)
  | .i32 => intComp (parseInt 32 (getContent t)) fun n => .i32 (BitVec.ofInt 32 n)
  | .f32 => .next ((F.parse32 (getContent t)).map CompVal.f32)
  | .style =>
    let r := fontStyleFromString (getContent t)
    if r.2 then .next (some (.style r.1)) else .stop false none
  | .weight => intComp (parseInt 16 (getContent t)) fun n => .weight (BitVec.ofInt 16 n)
  | .tag => .next (some (.tag t))

/-- The variables written so far. -/
abbrev CompVals := Map Bytes CompVal

/-- Store a value, if there is one. -/
def CompVals.put (vs : CompVals) (name : Bytes) : Option CompVal → CompVals
  | none => vs
  | some v => Map.set vs name v

/-- The loop of `getFrom` (rbxlx/codec.go:1013-1071); `c` are the components, `d` the names seen so far, and
the result is `ok` and the variables written. -/
def getFromLoop (F : FloatText) (c : List (Bytes × Comp)) : List Tag → List Bytes → CompVals → Bool × CompVals
  | [], d, vs => (decide (d.length = c.length), vs)
  | t :: ts, d, vs =>
    match Map.get? c t.head.startName with
    | none => getFromLoop F c ts d vs
    | some k =>
      if t.head.startName ∈ d then getFromLoop F c ts d vs
      else
        match readComp F k t with
        | .next v => getFromLoop F c ts (t.head.startName :: d) (vs.put t.head.startName v)
        | .stop ok v => (ok, vs.put t.head.startName v)

/-- `getFrom` (rbxlx/codec.go:1005-1072) on a tag that is not nil. -/
def getFrom (F : FloatText) (c : List (Bytes × Comp)) (t : Tag) : Bool × CompVals :=
  getFromLoop F c t.tags [] []

namespace CompVals
/-- A `uint8` variable. -/
def u8 (vs : CompVals) (n : Bytes) : Byte := match Map.get? vs n with | some (.u8 b) => b | _ => 0
/-- An `int16` variable. -/
def i16 (vs : CompVals) (n : Bytes) : BitVec 16 := match Map.get? vs n with | some (.i16 b) => b | _ => 0
/-- An `int32` variable. -/
def i32 (vs : CompVals) (n : Bytes) : BitVec 32 := match Map.get? vs n with | some (.i32 b) => b | _ => 0
/-- A `float32` variable. -/
def f32 (vs : CompVals) (n : Bytes) : F32 := match Map.get? vs n with | some (.f32 b) => b | _ => 0
/-- A `FontStyle` variable. -/
def style (vs : CompVals) (n : Bytes) : Byte := match Map.get? vs n with | some (.style b) => b | _ => 0
/-- A `FontWeight` variable. -/
def weight (vs : CompVals) (n : Bytes) : BitVec 16 := match Map.get? vs n with | some (.weight b) => b | _ => 0
/-- A `*documentTag` variable; `none` is nil. -/
def tag (vs : CompVals) (n : Bytes) : Option Tag := match Map.get? vs n with | some (.tag b) => some b | _ => none
end CompVals

/-! ## Sequences -/

/-- `scanFloat` (rbxlx/codec.go:981-1001) on the bytes from `i`: the number and what remains; `none` is the
index -1. -/
def scanFloat (F : FloatText) (b : Bytes) : Option (F32 × Bytes) :=
  match b.dropWhile (fun c => !isSpace c) with
  | [] => none
  | c :: rest =>
    match F.parse32 (b.takeWhile fun c => !isSpace c) with
    | none => none
    | some f => some (f, (c :: rest).dropWhile isSpace)

/-- The loop for NumberSequence (rbxlx/codec.go:751-764); the first argument bounds the number of
iterations. -/
def scanNumbers (F : FloatText) : Nat → Bytes → Option (List NumberKeypoint)
  | 0, _ => none
  | _ + 1, [] => some []
  | fuel + 1, b => do
    let (time, b) ← scanFloat F b
    let (value, b) ← scanFloat F b
    let (envelope, b) ← scanFloat F b
    let ks ← scanNumbers F fuel b
    some (⟨time, value, envelope⟩ :: ks)

/-- The loop for ColorSequence (rbxlx/codec.go:769-784); the first argument bounds the number of
iterations. -/
def scanColors (F : FloatText) : Nat → Bytes → Option (List ColorKeypoint)
  | 0, _ => none
  | _ + 1, [] => some []
  | fuel + 1, b => do
    let (time, b) ← scanFloat F b
    let (r, b) ← scanFloat F b
    let (g, b) ← scanFloat F b
    let (bl, b) ← scanFloat F b
    let (envelope, b) ← scanFloat F b
    let ks ← scanColors F fuel b
    some (⟨time, ⟨r, g, bl⟩, envelope⟩ :: ks)

/-! ## hex -/

/-- The value of a hexadecimal digit of either case (encoding/hex). -/
def hexDigit (c : Byte) : Option Nat :=
  if 48 ≤ c.toNat ∧ c.toNat ≤ 57 then some (c.toNat - 48)
  else if 97 ≤ c.toNat ∧ c.toNat ≤ 102 then some (c.toNat - 87)
  else if 65 ≤ c.toNat ∧ c.toNat ≤ 70 then some (c.toNat - 55)
  else none

/-- `hex.DecodeString`; `none` is an error. -/
def hexDecode : Bytes → Option Bytes
  | [] => some []
  | [_] => none
  | a :: b :: rest => do
    let x ← hexDigit a
    let y ← hexDigit b
    let r ← hexDecode rest
    some (BitVec.ofNat 8 (16 * x + y) :: r)

/-! ## Values -/

section
variable {ρ : Type}

/-- What is returned for an invalid value. -/
def invalid (discard : Bool) (zero : Value ρ) : Option (Value ρ) := if discard then none else some zero

/-- The case of Bool in `getValue` (rbxlx/codec.go:436-446). -/
def boolValue (discard : Bool) (t : Tag) : Option Bool :=
  let s := getContent t
  if s = str "false" ∨ s = str "False" ∨ s = str "FALSE" then some false
  else if s = str "true" ∨ s = str "True" ∨ s = str "TRUE" then some true
  else if discard then none else some false

/-- The case of Content in `getValue` (rbxlx/codec.go:514-545). The loop always ends with the first
subtag. -/
def contentValue (discard : Bool) (t : Tag) : Option Bytes :=
  let has := match t.head.cdata with
    | none => decide (t.head.text ≠ [])
    | some c => decide (c ≠ [])
  if has then none
  else
    match t.tags with
    | s :: _ =>
      if s.head.startName = str "binary" ∨ s.head.startName = str "hash" ∨ s.head.startName = str "null" then some []
      else if s.head.startName = str "url" then some (getContent s)
      else if discard then none else some []
    | [] => if discard then none else some []

/-- The names of the components of a CFrame (rbxlx/codec.go:460-473). -/
def cframeComps : List (Bytes × Comp) := [
  (str "X", .f32), (str "Y", .f32), (str "Z", .f32), (str "R00", .f32), (str "R01", .f32), (str "R02", .f32),
  (str "R10", .f32), (str "R11", .f32), (str "R12", .f32), (str "R20", .f32), (str "R21", .f32), (str "R22", .f32)]

/-- The components X, Y, Z as for Vector3 (rbxlx/codec.go:720-724). -/
def xyzComps : List (Bytes × Comp) := [(str "X", .f32), (str "Y", .f32), (str "Z", .f32)]
/-- The components X, Y as for Vector2 (rbxlx/codec.go:691-694). -/
def xyComps : List (Bytes × Comp) := [(str "X", .f32), (str "Y", .f32)]

/-- The components of PhysicalProperties (rbxlx/codec.go:860-866). -/
def physComps : List (Bytes × Comp) := [
  (str "Density", .f32), (str "Friction", .f32), (str "Elasticity", .f32), (str "FrictionWeight", .f32),
  (str "ElasticityWeight", .f32)]

/-- Bit `i` of an `int32`, as in `bits&(1<<i) > 0`. -/
def bit (n : BitVec 32) (i : Nat) : Bool := n.getLsbD i

/-- An integer value with the given text (the cases BrickColor, Int, Token, Int64 of `getValue`): a number out of
range is clamped. -/
def numValue (discard : Bool) {α : Type} (r : α × NumErr) (zero : Value ρ) (mk : α → Value ρ) : Option (Value ρ) :=
  match r.2 with
  | .syntax => invalid discard zero
  | _ => some (mk r.1)

/-- The case of UniqueId in `getValue` (rbxlx/codec.go:926-943). -/
def uniqueIdValue (discard : Bool) (text : Bytes) : Option (Value ρ) :=
  match hexDecode (text.take 32) with
  | none => invalid discard (.uniqueId 0 0 0)
  | some b =>
    if b.length < 16 then invalid discard (.uniqueId 0 0 0)
    else
      match readBe64 b with
      | .ok (r, b) =>
        match readBe32 b with
        | .ok (t, b) =>
          match readBe32 b with
          | .ok (i, _) => some (.uniqueId r t i)
          | _ => none
        | _ => none
      | _ => none

/-- The case of Font in `getValue` (rbxlx/codec.go:945-976). `getFrom` returns true early when the weight is out
of range: `family` may still be nil then, and is dereferenced. -/
def fontValue (F : FloatText) (discard : Bool) (t : Tag) : Res (Option (Value ρ)) :=
  let failed : Option (Value ρ) := invalid discard (.font [] 0 0 [])
  let r := getFrom F [(str "Family", .tag), (str "Weight", .weight), (str "Style", .style)] t
  if !r.1 then .ok failed
  else
    match r.2.tag (str "Family") with
    | none => .panic
    | some family =>
      match contentValue discard family with
      | none => .ok failed
      | some fam =>
        let r' := getFrom F [(str "CachedFaceId", .tag)] t
        match r'.1, r'.2.tag (str "CachedFaceId") with
        | false, _ => .ok (some (.font fam (r.2.weight (str "Weight")) (r.2.style (str "Style")) []))
        | true, none => .panic
        | true, some c =>
          match contentValue discard c with
          | none => .ok failed
          | some cached =>
            .ok (some (.font fam (r.2.weight (str "Weight")) (r.2.style (str "Style")) cached))

/-- The case of PhysicalProperties in `getValue` (rbxlx/codec.go:836-872). -/
def physValue (F : FloatText) (discard : Bool) (t : Tag) : Res (Option (Value ρ)) :=
  let zero : Value ρ := .physicalProperties false 0 0 0 0 0
  let r := getFrom F [(str "CustomPhysics", .tag)] t
  if !r.1 then .ok (invalid discard zero)
  else
    match r.2.tag (str "CustomPhysics") with
    | none => .panic
    | some cp =>
      match boolValue discard cp with
      | none => .ok (invalid discard zero)
      | some false => .ok (some zero)
      | some true =>
        let r := getFrom F physComps t
        let v : Value ρ := .physicalProperties true (r.2.f32 (str "Density")) (r.2.f32 (str "Friction"))
          (r.2.f32 (str "Elasticity")) (r.2.f32 (str "FrictionWeight")) (r.2.f32 (str "ElasticityWeight"))
        if !r.1 then .ok (invalid discard v) else .ok (some v)

/-- A value made of two tags with components (the cases Ray, rbxlx/codec.go:603-638, and Rect,
rbxlx/codec.go:801-834). A tag is not nil when `getFrom` has found both. -/
def pairValue (F : FloatText) (discard : Bool) (n1 n2 : Bytes) (comps : List (Bytes × Comp)) (zero : Value ρ)
    (mk : CompVals → CompVals → Value ρ) (t : Tag) : Option (Value ρ) :=
  let r := getFrom F [(n1, .tag), (n2, .tag)] t
  if !r.1 then invalid discard zero
  else
    match r.2.tag n1, r.2.tag n2 with
    | some a, some b =>
      let r1 := getFrom F comps a
      if !r1.1 then invalid discard zero
      else
        let r2 := getFrom F comps b
        if !r2.1 then invalid discard zero else some (mk r1.2 r2.2)
    | _, _ => invalid discard zero

/-- A value made of components (the cases Axes, CFrame, Faces, UDim, UDim2, Vector2, ... of `getValue`). -/
def compValue (F : FloatText) (discard : Bool) (comps : List (Bytes × Comp)) (zero : Value ρ)
    (mk : CompVals → Value ρ) (t : Tag) : Option (Value ρ) :=
  let r := getFrom F comps t
  if !r.1 then invalid discard zero else some (mk r.2)

/-- `getValue` (rbxlx/codec.go:406-979). -/
def getValue (F : FloatText) (discard : Bool) (t : Tag) : Ty → Res (Option (Value ρ))
  | .axes => .ok (compValue F discard [(str "axes", .i32)] (.axes false false false)
      (fun vs => let n := vs.i32 (str "axes"); .axes (bit n 0) (bit n 1) (bit n 2)) t)
  | .binaryString => .ok (match b64Decode (getContent t) with
      | none => invalid discard (.binaryString [])
      | some v => some (.binaryString v))
  | .bool => .ok ((boolValue discard t).map .bool)
  | .brickColor => .ok (numValue discard (parseUint 32 (getContent t)) (.brickColor 0)
      fun n => .brickColor (BitVec.ofNat 32 n))
  | .cframe => .ok (compValue F discard cframeComps (.cframe ⟨0, 0, 0⟩ ⟨0, 0, 0, 0, 0, 0, 0, 0, 0⟩)
      (fun vs => .cframe ⟨vs.f32 (str "X"), vs.f32 (str "Y"), vs.f32 (str "Z")⟩
        ⟨vs.f32 (str "R00"), vs.f32 (str "R01"), vs.f32 (str "R02"), vs.f32 (str "R10"), vs.f32 (str "R11"),
          vs.f32 (str "R12"), vs.f32 (str "R20"), vs.f32 (str "R21"), vs.f32 (str "R22")⟩) t)
  | .color3 =>
    if getContent t ≠ [] then
      .ok (numValue discard (parseUint 32 (getContent t)) (.color3 ⟨0, 0, 0⟩) fun n =>
        .color3 ⟨F.frac255 (BitVec.ofNat 8 (n / 65536)), F.frac255 (BitVec.ofNat 8 (n / 256)),
          F.frac255 (BitVec.ofNat 8 n)⟩)
    else .ok (compValue F discard [(str "R", .f32), (str "G", .f32), (str "B", .f32)] (.color3 ⟨0, 0, 0⟩)
      (fun vs => .color3 ⟨vs.f32 (str "R"), vs.f32 (str "G"), vs.f32 (str "B")⟩) t)
  | .content => .ok ((contentValue discard t).map .content)
  | .double => .ok (match F.parse64 (getContent t) with
      | none => invalid discard (.double 0)
      | some v => some (.double v))
  | .faces => .ok (compValue F discard [(str "faces", .i32)] (.faces false false false false false false)
      (fun vs => let n := vs.i32 (str "faces")
        .faces (bit n 0) (bit n 1) (bit n 2) (bit n 3) (bit n 4) (bit n 5)) t)
  | .float => .ok (match F.parse32 (getContent t) with
      | none => invalid discard (.float 0)
      | some v => some (.float v))
  | .int => .ok (numValue discard (parseInt 32 (getContent t)) (.int 0) fun n => .int (BitVec.ofInt 32 n))
  | .protectedString => .ok (some (.protectedString (getContent t)))
  | .ray => .ok (pairValue F discard (str "origin") (str "direction") xyzComps (.ray ⟨0, 0, 0⟩ ⟨0, 0, 0⟩)
      (fun a b => .ray ⟨a.f32 (str "X"), a.f32 (str "Y"), a.f32 (str "Z")⟩
        ⟨b.f32 (str "X"), b.f32 (str "Y"), b.f32 (str "Z")⟩) t)
  | .reference => .ok (some (.reference none))
  | .string => .ok (some (.string (getContent t)))
  | .token => .ok (numValue discard (parseInt 32 (getContent t)) (.token 0) fun n => .token (BitVec.ofInt 32 n))
  | .udim => .ok (compValue F discard [(str "S", .f32), (str "O", .i32)] (.udim ⟨0, 0⟩)
      (fun vs => .udim ⟨vs.f32 (str "S"), vs.i32 (str "O")⟩) t)
  | .udim2 => .ok (compValue F discard [(str "XS", .f32), (str "XO", .i32), (str "YS", .f32), (str "YO", .i32)]
      (.udim2 ⟨0, 0⟩ ⟨0, 0⟩)
      (fun vs => .udim2 ⟨vs.f32 (str "XS"), vs.i32 (str "XO")⟩ ⟨vs.f32 (str "YS"), vs.i32 (str "YO")⟩) t)
  | .vector2 => .ok (compValue F discard xyComps (.vector2 ⟨0, 0⟩)
      (fun vs => .vector2 ⟨vs.f32 (str "X"), vs.f32 (str "Y")⟩) t)
  | .vector2int16 => .ok (compValue F discard [(str "X", .i16), (str "Y", .i16)] (.vector2int16 0 0)
      (fun vs => .vector2int16 (vs.i16 (str "X")) (vs.i16 (str "Y"))) t)
  | .vector3 => .ok (compValue F discard xyzComps (.vector3 ⟨0, 0, 0⟩)
      (fun vs => .vector3 ⟨vs.f32 (str "X"), vs.f32 (str "Y"), vs.f32 (str "Z")⟩) t)
  | .vector3int16 => .ok (compValue F discard [(str "X", .i16), (str "Y", .i16), (str "Z", .i16)]
      (.vector3int16 0 0 0)
      (fun vs => .vector3int16 (vs.i16 (str "X")) (vs.i16 (str "Y")) (vs.i16 (str "Z"))) t)
  | .numberSequence => .ok (match scanNumbers F ((getContent t).length + 1) (getContent t) with
      | none => invalid discard (.numberSequence [])
      | some ks => some (.numberSequence ks))
  | .colorSequence => .ok (match scanColors F ((getContent t).length + 1) (getContent t) with
      | none => invalid discard (.colorSequence [])
      | some ks => some (.colorSequence ks))
  | .numberRange => .ok (match scanFloat F (getContent t) with
      | none => invalid discard (.numberRange 0 0)
      | some (min, b) =>
        match scanFloat F b with
        | none => invalid discard (.numberRange 0 0)
        | some (max, _) => some (.numberRange min max))
  | .rect => .ok (pairValue F discard (str "min") (str "max") xyComps (.rect ⟨0, 0⟩ ⟨0, 0⟩)
      (fun a b => .rect ⟨a.f32 (str "X"), a.f32 (str "Y")⟩ ⟨b.f32 (str "X"), b.f32 (str "Y")⟩) t)
  | .physicalProperties => physValue F discard t
  | .color3uint8 =>
    if getContent t ≠ [] then
      .ok (numValue discard (parseUint 32 (getContent t)) (.color3uint8 0 0 0) fun n =>
        .color3uint8 (BitVec.ofNat 8 (n / 65536)) (BitVec.ofNat 8 (n / 256)) (BitVec.ofNat 8 n))
    else .ok (compValue F discard [(str "R", .u8), (str "G", .u8), (str "B", .u8)] (.color3uint8 0 0 0)
      (fun vs => .color3uint8 (vs.u8 (str "R")) (vs.u8 (str "G")) (vs.u8 (str "B"))) t)
  | .int64 => .ok (numValue discard (parseInt 64 (getContent t)) (.int64 0) fun n => .int64 (BitVec.ofInt 64 n))
  | .sharedString => .ok (match b64Decode (getContent t) with
      | none => invalid discard (.sharedString [])
      | some v => some (.sharedString v))
  | .uniqueId => .ok (uniqueIdValue discard t.head.text)
  | .font => fontValue F discard t
  | .invalid => .ok none
  | .optional => .ok none

/-! ## Properties -/

/-- What `getProperty` (rbxlx/codec.go:190-237) does with a tag: nothing, a value, a reference to be resolved, or
the hash of a shared string to be looked up. -/
inductive PropRes (ρ : Type) where
  | nothing
  | value (name : Bytes) (v : Value ρ)
  | ref (name reference : Bytes)
  | shared (name hash : Bytes)

/-- `getOptional` (rbxlx/codec.go:239-250): `none` if not `ok`; otherwise the tag, which may be nil. -/
def getOptional (F : FloatText) (t : Tag) (ty : Ty) : Option (Option Tag) :=
  match t.tags with
  | [] => some none
  | _ =>
    if ty = .cframe then
      let r := getFrom F [(str "CFrame", .tag)] t
      if r.1 then some (r.2.tag (str "CFrame")) else none
    else none

/-- The end of `getProperty` (rbxlx/codec.go:208-236), for the tag containing the value. -/
def propValue (F : FloatText) (discard : Bool) (name : Bytes) (ty : Ty) (optional : Bool) (t : Tag) :
    Res (PropRes ρ) :=
  match getValue F discard t ty with
  | .panic => .panic
  | .err e => .err e
  | .ok none => .ok .nothing
  | .ok (some v) =>
    match v with
    | .reference _ =>
      if isEmptyReference (getContent t) then .ok (.value name (if optional then .optional .reference (some v) else v))
      else .ok (.ref name (getContent t))
    | .sharedString s => .ok (.shared name s)
    | v => .ok (.value name (if optional then .optional v.type (some v) else v))

/-- `getProperty` (rbxlx/codec.go:190-237). -/
def getProperty (F : FloatText) (discard : Bool) (t : Tag) : Res (PropRes ρ) :=
  match attrValue t.head.attr (str "name") with
  | none => .ok .nothing
  | some name =>
    let (ty, optional) := getCanonType t.head.startName
    if optional then
      match getOptional F t ty with
      | none => .ok .nothing
      | some none => .ok (.value name (.optional ty none))
      | some (some t) => propValue F discard name ty true t
    else propValue F discard name ty false t

end

end Rbxlx

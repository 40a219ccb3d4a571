import Verif.Go.FloatConv
import Verif.Rbxfile.Refs
import Verif.Rbxfile.Names
/-!
# The declare package (declare/declare.go, declare/type.go)
-/
namespace Declare
open Go Rbxfile

/-- The integer types of Go. -/
inductive IntKind where
  | int | uint | uint8 | uint16 | uint32 | uint64 | int8 | int16 | int32 | int64
  deriving Repr, DecidableEq

/-- A Go `interface{}`, as far as declare/type.go distinguishes types. `other` is any other type (nil included). -/
inductive GoVal (ρ : Type) where
  | int (k : IntKind) (n : Int)
  | f32 (f : F32)
  | f64 (f : F64)
  | bool (b : Bool)
  | string (s : Bytes)
  | bytes (s : Bytes)
  | inst (p : Option ρ)
  | value (v : Value ρ)
  | numberKeypoint (k : NumberKeypoint)
  | colorKeypoint (k : ColorKeypoint)
  | other
  deriving Inhabited

/-- Go's conversions of float32 and float64 numbers that are out of range of an integer type. -/
structure Conv where
  of32 : Overflow
  of64 : Overflow

section
variable {ρ : Type} (C : Conv)

/-- `normUint8` (declare/type.go:101-130). The ten cases of integers are alike. -/
def normUint8 : GoVal ρ → BitVec 8
  | .int _ n => BitVec.ofInt 8 n
  | .f32 f => f64ToUint C.of32 8 (f32to64 f)
  | .f64 f => f64ToUint C.of64 8 f
  | _ => 0
/-- `normInt16` (declare/type.go:132-161). -/
def normInt16 : GoVal ρ → BitVec 16
  | .int _ n => BitVec.ofInt 16 n
  | .f32 f => f64ToInt C.of32 16 (f32to64 f)
  | .f64 f => f64ToInt C.of64 16 f
  | _ => 0
/-- `normInt32` (declare/type.go:163-192). -/
def normInt32 : GoVal ρ → BitVec 32
  | .int _ n => BitVec.ofInt 32 n
  | .f32 f => f64ToInt C.of32 32 (f32to64 f)
  | .f64 f => f64ToInt C.of64 32 f
  | _ => 0
/-- `normInt64` (declare/type.go:194-223). -/
def normInt64 : GoVal ρ → BitVec 64
  | .int _ n => BitVec.ofInt 64 n
  | .f32 f => f64ToInt C.of32 64 (f32to64 f)
  | .f64 f => f64ToInt C.of64 64 f
  | _ => 0
/-- `normUint32` (declare/type.go:225-254). -/
def normUint32 : GoVal ρ → BitVec 32
  | .int _ n => BitVec.ofInt 32 n
  | .f32 f => f64ToUint C.of32 32 (f32to64 f)
  | .f64 f => f64ToUint C.of64 32 f
  | _ => 0
/-- `normFloat32` (declare/type.go:256-285). -/
def normFloat32 : GoVal ρ → F32
  | .int _ n => intToF32 n
  | .f32 f => f
  | .f64 f => f64to32 f
  | _ => 0
/-- `normFloat64` (declare/type.go:287-316). -/
def normFloat64 : GoVal ρ → F64
  | .int _ n => intToF64 n
  | .f32 f => f32to64 f
  | .f64 f => f
  | _ => 0
/-- `normBool` (declare/type.go:318-321). -/
def normBool : GoVal ρ → Bool
  | .bool b => b
  | _ => false

/-- The constants of `Type` (declare/type.go:22-54): the type with a code; other codes have no case in a switch. -/
def dty (t : Byte) : Ty :=
  match t.toNat with
  | 1 => .string | 2 => .binaryString | 3 => .protectedString | 4 => .content | 5 => .bool | 6 => .int | 7 => .float
  | 8 => .double | 9 => .udim | 10 => .udim2 | 11 => .ray | 12 => .faces | 13 => .axes | 14 => .brickColor
  | 15 => .color3 | 16 => .vector2 | 17 => .vector3 | 18 => .cframe | 19 => .token | 20 => .reference
  | 21 => .vector3int16 | 22 => .vector2int16 | 23 => .numberSequence | 24 => .colorSequence | 25 => .numberRange
  | 26 => .rect | 27 => .physicalProperties | 28 => .color3uint8 | 29 => .int64 | 30 => .sharedString | _ => .invalid

/-- `assertValue` (declare/type.go:323-387): the value and ok. -/
def assertValue (t : Ty) (v : GoVal ρ) : Option (Value ρ) :=
  match t, v with
  | .string, .value (.string s) => some (.string s)
  | .binaryString, .value (.binaryString s) => some (.binaryString s)
  | .protectedString, .value (.protectedString s) => some (.protectedString s)
  | .content, .value (.content s) => some (.content s)
  | .bool, .value (.bool b) => some (.bool b)
  | .int, .value (.int n) => some (.int n)
  | .float, .value (.float f) => some (.float f)
  | .double, .value (.double f) => some (.double f)
  | .udim, .value (.udim u) => some (.udim u)
  | .udim2, .value (.udim2 x y) => some (.udim2 x y)
  | .ray, .value (.ray o d) => some (.ray o d)
  | .faces, .value (.faces r t b l bo f) => some (.faces r t b l bo f)
  | .axes, .value (.axes x y z) => some (.axes x y z)
  | .brickColor, .value (.brickColor n) => some (.brickColor n)
  | .color3, .value (.color3 c) => some (.color3 c)
  | .vector2, .value (.vector2 v) => some (.vector2 v)
  | .vector3, .value (.vector3 v) => some (.vector3 v)
  | .cframe, .value (.cframe p r) => some (.cframe p r)
  | .token, .value (.token n) => some (.token n)
  | .reference, .value (.reference p) => some (.reference p)
  | .vector3int16, .value (.vector3int16 x y z) => some (.vector3int16 x y z)
  | .vector2int16, .value (.vector2int16 x y) => some (.vector2int16 x y)
  | .numberSequence, .value (.numberSequence ks) => some (.numberSequence ks)
  | .colorSequence, .value (.colorSequence ks) => some (.colorSequence ks)
  | .numberRange, .value (.numberRange a b) => some (.numberRange a b)
  | .rect, .value (.rect a b) => some (.rect a b)
  | .physicalProperties, .value (.physicalProperties c d f e fw ew) => some (.physicalProperties c d f e fw ew)
  | .color3uint8, .value (.color3uint8 r g b) => some (.color3uint8 r g b)
  | .int64, .value (.int64 n) => some (.int64 n)
  | .sharedString, .value (.sharedString s) => some (.sharedString s)
  | _, _ => none

/-- `v, _ := v.(rbxfile.ValueUDim)`. -/
def asUDim : GoVal ρ → UDim
  | .value (.udim u) => u
  | _ => ⟨0, 0⟩
/-- `v, _ := v.(rbxfile.ValueVector3)`. -/
def asVector3 : GoVal ρ → Vector3
  | .value (.vector3 v) => v
  | _ => ⟨0, 0, 0⟩
/-- `v, _ := v.(rbxfile.ValueVector2)`. -/
def asVector2 : GoVal ρ → Vector2
  | .value (.vector2 v) => v
  | _ => ⟨0, 0⟩
/-- `k, _ := k.(rbxfile.ValueNumberSequenceKeypoint)`. -/
def asNumberKeypoint : GoVal ρ → NumberKeypoint
  | .numberKeypoint k => k
  | _ => ⟨0, 0, 0⟩
/-- `k, _ := k.(rbxfile.ValueColorSequenceKeypoint)`. -/
def asColorKeypoint : GoVal ρ → ColorKeypoint
  | .colorKeypoint k => k
  | _ => ⟨0, ⟨0, 0, 0⟩, 0⟩

/-- The cases of `Type.value` (declare/type.go:398-723); `.ok none`: the switch is left without a return. The loops over
groups of a NumberSequence and a ColorSequence (612-620, 632-641, 642-654) fill a slice that is not used. -/
def cases (t : Ty) (refs : References ρ) (v : List (GoVal ρ)) : Res (Option (Value ρ)) :=
  match t, v with
  | .string, .string s :: _ => .ok (some (.string s))
  | .string, .bytes s :: _ => .ok (some (.string s))
  | .binaryString, .string s :: _ => .ok (some (.string s))
  | .binaryString, .bytes s :: _ => .ok (some (.string s))
  | .protectedString, .string s :: _ => .ok (some (.string s))
  | .protectedString, .bytes s :: _ => .ok (some (.string s))
  | .content, .string s :: _ => .ok (some (.string s))
  | .content, .bytes s :: _ => .ok (some (.string s))
  | .bool, .bool b :: _ => .ok (some (.bool b))
  | .int, a :: _ => .ok (some (.int (normInt32 C a)))
  | .float, a :: _ => .ok (some (.float (normFloat32 a)))
  | .double, a :: _ => .ok (some (.float (f64to32 (normFloat64 a))))
  | .udim, [a, b] => .ok (some (.udim ⟨normFloat32 a, normInt32 C b⟩))
  | .udim2, [a, b] => .ok (some (.udim2 (asUDim a) (asUDim b)))
  | .udim2, [a, b, c, d] => .ok (some (.udim2 ⟨normFloat32 a, normInt32 C b⟩ ⟨normFloat32 c, normInt32 C d⟩))
  | .ray, [a, b] => .ok (some (.ray (asVector3 a) (asVector3 b)))
  | .ray, [a, b, c, d, e, f] =>
    .ok (some (.ray ⟨normFloat32 a, normFloat32 b, normFloat32 c⟩ ⟨normFloat32 d, normFloat32 e, normFloat32 f⟩))
  | .faces, [a, b, c, d, e, f] =>
    .ok (some (.faces (normBool a) (normBool b) (normBool c) (normBool d) (normBool e) (normBool f)))
  | .axes, [a, b, c] => .ok (some (.axes (normBool a) (normBool b) (normBool c)))
  | .brickColor, a :: _ => .ok (some (.brickColor (normUint32 C a)))
  | .color3, [a, b, c] => .ok (some (.color3 ⟨normFloat32 a, normFloat32 b, normFloat32 c⟩))
  | .vector2, [a, b] => .ok (some (.vector2 ⟨normFloat32 a, normFloat32 b⟩))
  | .vector3, [a, b, c] => .ok (some (.vector3 ⟨normFloat32 a, normFloat32 b, normFloat32 c⟩))
  | .cframe, [a, b, c, d, e, f, g, h, i, _] =>
    .ok (some (.cframe (asVector3 a) ⟨normFloat32 a, normFloat32 b, normFloat32 c, normFloat32 d, normFloat32 e,
      normFloat32 f, normFloat32 g, normFloat32 h, normFloat32 i⟩))
  | .cframe, [a, b, c, d, e, f, g, h, i, j, k, l] =>
    .ok (some (.cframe ⟨normFloat32 a, normFloat32 b, normFloat32 c⟩ ⟨normFloat32 d, normFloat32 e, normFloat32 f,
      normFloat32 g, normFloat32 h, normFloat32 i, normFloat32 j, normFloat32 k, normFloat32 l⟩))
  | .token, a :: _ => .ok (some (.token (normUint32 C a)))
  | .reference, .string s :: _ => .ok (some (.reference (refs.at s)))
  | .reference, .bytes s :: _ => .ok (some (.reference (refs.at s)))
  | .reference, .inst p :: _ => .ok (some (.reference p))
  | .vector3int16, [a, b, c] => .ok (some (.vector3int16 (normInt16 C a) (normInt16 C b) (normInt16 C c)))
  | .vector2int16, [a, b] => .ok (some (.vector2int16 (normInt16 C a) (normInt16 C b)))
  | .numberSequence, .numberKeypoint k :: b :: v =>
    .ok (some (.numberSequence ((.numberKeypoint k :: b :: v).map asNumberKeypoint)))
  | .colorSequence, .colorKeypoint k :: b :: v =>
    .ok (some (.colorSequence ((.colorKeypoint k :: b :: v).map asColorKeypoint)))
  | .colorSequence, [_] => .panic
  | .numberRange, [a, b] => .ok (some (.numberRange (normFloat32 a) (normFloat32 b)))
  | .rect, [a, _] => .ok (some (.rect (asVector2 a) (asVector2 a)))
  | .rect, [a, b, c, d] => .ok (some (.rect ⟨normFloat32 a, normFloat32 b⟩ ⟨normFloat32 c, normFloat32 d⟩))
  | .physicalProperties, [a, b, c] =>
    .ok (some (.physicalProperties true (normFloat32 a) (normFloat32 b) (normFloat32 c) 0 0))
  | .physicalProperties, [a, b, c, d, e] =>
    .ok (some (.physicalProperties true (normFloat32 a) (normFloat32 b) (normFloat32 c) (normFloat32 d) (normFloat32 e)))
  | .color3uint8, [a, b, c] => .ok (some (.color3uint8 (normUint8 C a) (normUint8 C b) (normUint8 C c)))
  | .int64, a :: _ => .ok (some (.int64 (normInt64 C a)))
  | .sharedString, .string s :: _ => .ok (some (.sharedString s))
  | .sharedString, .bytes s :: _ => .ok (some (.sharedString s))
  | _, _ => .ok none

/-- `Type.value` (declare/type.go:389-727); `none` is nil. -/
def value (t : Byte) (refs : References ρ) (v : List (GoVal ρ)) : Res (Option (Value ρ)) :=
  match v with
  | [] => .ok (newValue t)
  | a :: v =>
    match assertValue (dty t) a with
    | some w => .ok (some w)
    | none =>
      match cases C (dty t) refs (a :: v) with
      | .ok (some w) => .ok (some w)
      | .ok none => .ok (newValue t)
      | .err e => .err e
      | .panic => .panic
end

/-! ## Declarations -/

/-- `property` (declare/declare.go:180-184). -/
structure Property where
  name : Bytes
  typ : Byte
  value : List (GoVal Nat)

/-- `instance` (declare/declare.go:111-116). -/
inductive Instance where
  | mk (className reference : Bytes) (properties : List Property) (children : List Instance)

/-- The class name. -/
def Instance.className : Instance → Bytes | .mk c _ _ _ => c
/-- The reference. -/
def Instance.reference : Instance → Bytes | .mk _ r _ _ => r
/-- The properties. -/
def Instance.properties : Instance → List Property | .mk _ _ ps _ => ps
/-- The children. -/
def Instance.children : Instance → List Instance | .mk _ _ _ cs => cs

/-- `element` (declare/declare.go:106-108): what implements it. -/
inductive Element where
  | ref (s : Bytes)
  | property (p : Property)
  | instance (i : Instance)

/-- The body of the loop over the elements (declare/declare.go:166-175). -/
def addElement : Instance → Element → Instance
  | .mk c _ ps cs, .ref s => .mk c s ps cs
  | .mk c r ps cs, .property p => .mk c r (ps ++ [p]) cs
  | .mk c r ps cs, .instance d => .mk c r ps (cs ++ [d])

/-- `Instance` (declare/declare.go:161-178). -/
def instanceOf (className : Bytes) (elements : List Element) : Instance :=
  elements.foldl addElement (.mk className [] [] [])

/-- `primary` (declare/declare.go:22-24): what implements it. -/
inductive Primary where
  | instance (i : Instance)
  | metadata (key value : Bytes)

/-- The instances made so far, `refs` and `props`. The pointers of new instances are consecutive numbers. -/
structure State where
  next : Nat
  heap : Heap Nat := []
  refs : References Nat := []
  props : List (Nat × List Property) := []

mutual
/-- `build` (declare/declare.go:31-49). -/
def build : Instance → State → Nat × State
  | .mk cls ref ps cs, s =>
    let p := s.next
    let r := buildAll cs
      { next := p + 1
        heap := s.heap.set p { className := cls, reference := ref }
        refs := if ref ≠ [] then s.refs.set ref (some p) else s.refs
        props := s.props ++ [(p, ps)] }
    (p, { r.2 with heap := r.2.heap.set p { className := cls, reference := ref, children := r.1 } })
/-- The loop over the children (declare/declare.go:43-46). -/
def buildAll : List Instance → State → List Nat × State
  | [], s => ([], s)
  | d :: ds, s =>
    let r := build d s
    let rs := buildAll ds r.2
    (r.1 :: rs.1, rs.2)
end

/-- `inst.Properties[name] = value`. A nil value, which the type 0 and types above 33 have, is modelled like a missing
property. -/
def setProp (h : Heap Nat) (p : Nat) (name : Bytes) (v : Option (Value Nat)) : Heap Nat :=
  match h.get? p with
  | none => h
  | some i => h.set p { i with properties := match v with
    | some v => i.properties.set name v
    | none => i.properties.erase name }

/-- The properties of an instance (declare/declare.go:86-88). -/
def assign (C : Conv) (refs : References Nat) (p : Nat) : List Property → Heap Nat → Res (Heap Nat)
  | [], h => .ok h
  | q :: qs, h => do
    let v ← value C q.typ refs q.value
    assign C refs p qs (setProp h p q.name v)

/-- The loop over `props` (declare/declare.go:85-89). -/
def assignAll (C : Conv) (refs : References Nat) : List (Nat × List Property) → Heap Nat → Res (Heap Nat)
  | [], h => .ok h
  | (p, qs) :: l, h => do
    let h ← assign C refs p qs h
    assignAll C refs l h

/-- The loop over the declarations (declare/declare.go:76-83). -/
def buildRoot : List Primary → Root Nat → State → Root Nat × State
  | [], root, s => (root, s)
  | .instance d :: ds, root, s =>
    let r := build d s
    buildRoot ds { root with instances := root.instances ++ [r.1] } r.2
  | .metadata k v :: ds, root, s => buildRoot ds { root with metadata := root.metadata.set k v } s

/-- `Root.Declare` (declare/declare.go:56-92): the new instances and the root. `base` is the pointer of the first new
instance, `it` is the order of iteration over `props`. -/
def declareRoot (C : Conv) (it : Iter) (base : Nat) (ds : List Primary) : Res (Heap Nat × Root Nat) := do
  let r := buildRoot ds {} { next := base }
  let h ← assignAll C r.2.refs (it.run [] r.2.props) r.2.heap
  pure (h, r.1)

/-- `instance.Declare` (declare/declare.go:124-151), which has the body of `build` once more. -/
def declareInstance (C : Conv) (it : Iter) (base : Nat) (d : Instance) : Res (Heap Nat × Nat) := do
  let r := build d { next := base }
  let h ← assignAll C r.2.refs (it.run [] r.2.props) r.2.heap
  pure (h, r.1)

/-- `property.Declare` (declare/declare.go:304-307): the references are nil. -/
def declareProperty (C : Conv) (q : Property) : Res (Option (Value Nat)) := value C q.typ [] q.value

end Declare

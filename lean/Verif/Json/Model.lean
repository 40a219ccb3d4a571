import Verif.Go.Base64
import Verif.Go.FloatConv
import Verif.Rbxfile.Refs
/-!
# The json package (json/json.go)

The generic interface values that `encoding/json` produces and consumes are modelled by `JVal`. `encoding/json` itself,
which is not part of /repo, is a parameter of `encode` and `decode`.
-/
namespace Json
open Go Rbxfile

/-- A Go `interface{}` made of the types json/json.go uses. `type` is a `rbxfile.Type`, which is stored in the value of
an Optional. A Go map is an association list. -/
inductive JVal where
  | null
  | bool (b : Bool)
  | num (f : F64)
  | str (s : Bytes)
  | arr (l : List JVal)
  | obj (m : List (Bytes × JVal))
  | type (t : Ty)
  deriving Repr, Inhabited

/-- `indexJSON(v, key, p)` with a string key (json/json.go:35-100): the element, if `v` is an object that has it. The
type of `p` is checked by the caller. -/
def index (v : JVal) (key : Bytes) : Option JVal :=
  match v with
  | .obj m => Map.get? m key
  | _ => none

/-! ## Encoding -/

/-- `float64(f)` of a float32 as an interface. -/
def float (f : F32) : JVal := .num (f32to64 f)
/-- `float64(n)` of a signed integer as an interface. -/
def int {w : Nat} (n : BitVec w) : JVal := .num (intToF64 n.toInt)
/-- `float64(n)` of an unsigned integer as an interface. -/
def uint {w : Nat} (n : BitVec w) : JVal := .num (intToF64 n.toNat)

/-- The text a `base64.NewEncoder` has written when it is not closed: complete groups of three bytes
(json/json.go:263-267, 403-408). -/
def openBase64 (s : Bytes) : Bytes := b64Encode (s.take (s.length / 3 * 3))

/-- json/json.go:283-287. -/
def ofUDim (u : UDim) : JVal := .obj [(str "scale", float u.scale), (str "offset", int u.offset)]
/-- json/json.go:326-331. -/
def ofVector3 (v : Vector3) : JVal := .obj [(str "x", float v.x), (str "y", float v.y), (str "z", float v.z)]
/-- json/json.go:321-325. -/
def ofVector2 (v : Vector2) : JVal := .obj [(str "x", float v.x), (str "y", float v.y)]
/-- json/json.go:315-320. -/
def ofColor3 (c : Color3) : JVal := .obj [(str "r", float c.r), (str "g", float c.g), (str "b", float c.b)]
/-- json/json.go:335-338. -/
def ofMatrix (m : Matrix) : JVal :=
  .arr [float m.m0, float m.m1, float m.m2, float m.m3, float m.m4, float m.m5, float m.m6, float m.m7, float m.m8]
/-- json/json.go:359-363. -/
def ofNumberKeypoint (k : NumberKeypoint) : JVal :=
  .obj [(str "time", float k.time), (str "value", float k.value), (str "envelope", float k.envelope)]
/-- json/json.go:369-373. -/
def ofColorKeypoint (k : ColorKeypoint) : JVal :=
  .obj [(str "time", float k.time), (str "value", ofColor3 k.value), (str "envelope", float k.envelope)]

section
variable (gen : Nat → Bytes) (fuel : Nat)

/-- `ValueToJSONInterface` (json/json.go:259-416), given a References map that is not nil. -/
def valueTo : Value Nat → RefState Nat → Res (JVal × RefState Nat)
  | .string s, st => .ok (.str s, st)
  | .binaryString s, st => .ok (.str (openBase64 s), st)
  | .protectedString s, st => .ok (.str s, st)
  | .content s, st => .ok (if s = [] then .null else .str s, st)
  | .bool b, st => .ok (.bool b, st)
  | .int n, st => .ok (int n, st)
  | .float f, st => .ok (float f, st)
  | .double f, st => .ok (.num f, st)
  | .udim u, st => .ok (ofUDim u, st)
  | .udim2 x y, st => .ok (.obj [(str "x", ofUDim x), (str "y", ofUDim y)], st)
  | .ray o d, st => .ok (.obj [(str "origin", ofVector3 o), (str "direction", ofVector3 d)], st)
  | .faces r t b l bo f, st =>
    .ok (.obj [(str "right", .bool r), (str "top", .bool t), (str "back", .bool b), (str "left", .bool l),
      (str "bottom", .bool bo), (str "front", .bool f)], st)
  | .axes x y z, st => .ok (.obj [(str "x", .bool x), (str "y", .bool y), (str "z", .bool z)], st)
  | .brickColor n, st => .ok (uint n, st)
  | .color3 c, st => .ok (ofColor3 c, st)
  | .vector2 v, st => .ok (ofVector2 v, st)
  | .vector3 v, st => .ok (ofVector3 v, st)
  | .cframe p r, st => .ok (.obj [(str "position", ofVector3 p), (str "rotation", ofMatrix r)], st)
  | .token n, st => .ok (uint n, st)
  | .reference q, st =>
    match getRef gen fuel st q with
    | .ok (r, st) => .ok (.str r, st)
    | .err e => .err e
    | .panic => .panic
  | .vector3int16 x y z, st => .ok (.obj [(str "x", int x), (str "y", int y), (str "z", int z)], st)
  | .vector2int16 x y, st => .ok (.obj [(str "x", int x), (str "y", int y)], st)
  | .numberSequence ks, st => .ok (.arr (ks.map ofNumberKeypoint), st)
  | .colorSequence ks, st => .ok (.arr (ks.map ofColorKeypoint), st)
  | .numberRange a b, st => .ok (.obj [(str "min", float a), (str "max", float b)], st)
  | .rect a b, st => .ok (.obj [(str "min", ofVector2 a), (str "max", ofVector2 b)], st)
  | .physicalProperties c d f e fw ew, st =>
    .ok (.obj [(str "custom_physics", .bool c), (str "density", float d), (str "friction", float f),
      (str "elasticity", float e), (str "friction_weight", float fw), (str "elasticity_weight", float ew)], st)
  | .color3uint8 r g b, st => .ok (.obj [(str "r", uint r), (str "g", uint g), (str "b", uint b)], st)
  | .int64 n, st => .ok (int n, st)
  | .sharedString s, st => .ok (.str (openBase64 s), st)
  | .optional t none, st => .ok (.obj [(str "type", .type t), (str "value", .null)], st)
  | .optional t (some v), st =>
    match valueTo v st with
    | .ok (j, st) => .ok (.obj [(str "type", .type t), (str "value", j)], st)
    | .err e => .err e
    | .panic => .panic
  | .uniqueId .., st => .ok (.null, st)
  | .font .., st => .ok (.null, st)

/-- The loop over the properties in `InstanceToJSONInterface` (json/json.go:165-170). -/
def propsTo : List (Bytes × Value Nat) → RefState Nat → Res (List (Bytes × JVal) × RefState Nat)
  | [], st => .ok ([], st)
  | (name, v) :: ps, st => do
    let (j, st) ← valueTo gen fuel v st
    let (js, st) ← propsTo ps st
    pure ((name, .obj [(str "type", .str (typeString v.type.code)), (str "value", j)]) :: js, st)

/-- A loop over instances, `f` being `InstanceToJSONInterface` (json/json.go:109-111, 173-175). -/
def listTo (f : Nat → RefState Nat → Res (JVal × RefState Nat)) :
    List Nat → RefState Nat → Res (List JVal × RefState Nat)
  | [], st => .ok ([], st)
  | p :: ps, st => do
    let (j, st) ← f p st
    let (js, st) ← listTo f ps st
    pure (j :: js, st)

/-- `InstanceToJSONInterface` (json/json.go:159-178). The recursion ends for trees; the model bounds its depth by the
first argument. `it` is the order of iteration over maps. -/
def instTo (it : Iter) : Nat → Nat → RefState Nat → Res (JVal × RefState Nat)
  | 0, _, _ => .panic
  | depth + 1, p, st =>
    match st.heap.get? p with
    | none => .panic
    | some inst => do
      let (r, st) ← getRef gen fuel st (some p)
      let (props, st) ← propsTo gen fuel (it.run [p] inst.properties) st
      let (kids, st) ← listTo (instTo it depth) inst.children st
      pure (.obj [(str "class_name", .str inst.className), (str "reference", .str r),
        (str "is_service", .bool inst.isService), (str "properties", .obj props), (str "children", .arr kids)], st)

/-- `RootToJSONInterface` (json/json.go:104-114): the interface, and the instances afterwards. -/
def rootTo (it : Iter) (h : Heap Nat) (pos : Nat) (root : Root Nat) : Res (JVal × Heap Nat) := do
  let (js, st) ← listTo (instTo gen fuel it (h.length + 1)) root.instances ⟨h, [], pos⟩
  pure (.obj [(str "rbxfile_version", .num (intToF64 0)), (str "instances", .arr js)], st.heap)
end

/-! ## Decoding -/

/-- The type with a given code; every value above `TypeFont` behaves like `TypeInvalid`. -/
def tyOf (c : Byte) : Ty :=
  match c.toNat with
  | 1 => .string | 2 => .binaryString | 3 => .protectedString | 4 => .content | 5 => .bool | 6 => .int | 7 => .float
  | 8 => .double | 9 => .udim | 10 => .udim2 | 11 => .ray | 12 => .faces | 13 => .axes | 14 => .brickColor
  | 15 => .color3 | 16 => .vector2 | 17 => .vector3 | 18 => .cframe | 19 => .token | 20 => .reference
  | 21 => .vector3int16 | 22 => .vector2int16 | 23 => .numberSequence | 24 => .colorSequence | 25 => .numberRange
  | 26 => .rect | 27 => .physicalProperties | 28 => .color3uint8 | 29 => .int64 | 30 => .sharedString
  | 31 => .optional | 32 => .uniqueId | 33 => .font | _ => .invalid

section
variable {ρ : Type}

/-- `v[key].(float64)`. -/
def num (m : List (Bytes × JVal)) (key : String) : Res F64 :=
  match Map.get? m (str key) with
  | some (.num f) => .ok f
  | _ => .panic
/-- `float32(v[key].(float64))`. -/
def num32 (m : List (Bytes × JVal)) (key : String) : Res F32 :=
  match num m key with
  | .ok f => .ok (f64to32 f)
  | _ => .panic
/-- `v[key].(bool)`. -/
def boolean (m : List (Bytes × JVal)) (key : String) : Res Bool :=
  match Map.get? m (str key) with
  | some (.bool b) => .ok b
  | _ => .panic
/-- `v[key]`: nil if the key is missing. -/
def field (m : List (Bytes × JVal)) (key : String) : JVal := (Map.get? m (str key)).getD .null

variable (O : Overflow)

/-- `ValueFromJSONInterface(TypeUDim, j).(ValueUDim)` (json/json.go:482-490): the assertion fails on nil. -/
def toUDim : JVal → Res UDim
  | .obj m => do
    let s ← num32 m "scale"
    let o ← num m "offset"
    pure ⟨s, f64ToInt O 32 o⟩
  | _ => .panic
/-- `ValueFromJSONInterface(TypeVector3, j).(ValueVector3)` (json/json.go:557-566). -/
def toVector3 : JVal → Res Vector3
  | .obj m => do
    let x ← num32 m "x"
    let y ← num32 m "y"
    let z ← num32 m "z"
    pure ⟨x, y, z⟩
  | _ => .panic
/-- `ValueFromJSONInterface(TypeVector2, j).(ValueVector2)` (json/json.go:548-556). -/
def toVector2 : JVal → Res Vector2
  | .obj m => do
    let x ← num32 m "x"
    let y ← num32 m "y"
    pure ⟨x, y⟩
  | _ => .panic
/-- `ValueFromJSONInterface(TypeColor3, j).(ValueColor3)` (json/json.go:538-547). -/
def toColor3 : JVal → Res Color3
  | .obj m => do
    let r ← num32 m "r"
    let g ← num32 m "g"
    let b ← num32 m "b"
    pure ⟨r, g, b⟩
  | _ => .panic

/-- `float32(irot.(float64))` for the elements of a list. -/
def toFloats : List JVal → Res (List F32)
  | [] => .ok []
  | .num f :: js => do
    let fs ← toFloats js
    pure (f64to32 f :: fs)
  | _ :: _ => .panic

/-- An array of nine numbers of which the first ones are given. -/
def matrixOf (l : List F32) : Matrix :=
  ⟨l.getD 0 0, l.getD 1 0, l.getD 2 0, l.getD 3 0, l.getD 4 0, l.getD 5 0, l.getD 6 0, l.getD 7 0, l.getD 8 0⟩

/-- The keypoints of a NumberSequence (json/json.go:624-635): a keypoint that is not an object is zero. -/
def toNumberKeypoints : List JVal → Res (List NumberKeypoint)
  | [] => .ok []
  | .obj m :: js => do
    let t ← num32 m "time"
    let v ← num32 m "value"
    let e ← num32 m "envelope"
    let ks ← toNumberKeypoints js
    pure (⟨t, v, e⟩ :: ks)
  | _ :: js => do
    let ks ← toNumberKeypoints js
    pure (⟨0, 0, 0⟩ :: ks)

/-- The keypoints of a ColorSequence (json/json.go:642-653). -/
def toColorKeypoints : List JVal → Res (List ColorKeypoint)
  | [] => .ok []
  | .obj m :: js => do
    let t ← num32 m "time"
    let v ← toColor3 (field m "value")
    let e ← num32 m "envelope"
    let ks ← toColorKeypoints js
    pure (⟨t, v, e⟩ :: ks)
  | _ :: js => do
    let ks ← toColorKeypoints js
    pure (⟨0, ⟨0, 0, 0⟩, 0⟩ :: ks)

/-- `ValueFromJSONInterface` (json/json.go:424-726) for the types other than Optional; `none` is nil. -/
def baseFrom (t : Ty) (j : JVal) : Res (Option (Value ρ)) :=
  match t, j with
  | .string, .str s => .ok (some (.string s))
  | .binaryString, .str s => .ok (some (.binaryString ((b64Decode s).getD s)))
  | .protectedString, .str s => .ok (some (.protectedString s))
  | .content, .null => .ok (some (.content []))
  | .content, .str s => .ok (some (.content s))
  | .bool, .bool b => .ok (some (.bool b))
  | .int, .num f => .ok (some (.int (f64ToInt O 32 f)))
  | .float, .num f => .ok (some (.float (f64to32 f)))
  | .double, .num f => .ok (some (.double f))
  | .udim, .obj m => do
    let u ← toUDim O (.obj m)
    pure (some (.udim u))
  | .udim2, .obj m => do
    let x ← toUDim O (field m "x")
    let y ← toUDim O (field m "y")
    pure (some (.udim2 x y))
  | .ray, .obj m => do
    let o ← toVector3 (field m "origin")
    let d ← toVector3 (field m "direction")
    pure (some (.ray o d))
  | .faces, .obj m => do
    let r ← boolean m "right"
    let t ← boolean m "top"
    let b ← boolean m "back"
    let l ← boolean m "left"
    let bo ← boolean m "bottom"
    let f ← boolean m "front"
    pure (some (.faces r t b l bo f))
  | .axes, .obj m => do
    let x ← boolean m "x"
    let y ← boolean m "y"
    let z ← boolean m "z"
    pure (some (.axes x y z))
  | .brickColor, .num f => .ok (some (.brickColor (f64ToUint O 32 f)))
  | .color3, .obj m => do
    let c ← toColor3 (.obj m)
    pure (some (.color3 c))
  | .vector2, .obj m => do
    let v ← toVector2 (.obj m)
    pure (some (.vector2 v))
  | .vector3, .obj m => do
    let v ← toVector3 (.obj m)
    pure (some (.vector3 v))
  | .cframe, .obj m => do
    let p ← toVector3 (field m "position")
    match Map.get? m (str "rotation") with
    | some (.arr l) =>
      let fs ← toFloats (l.take 9)
      pure (some (.cframe p (matrixOf fs)))
    | _ => pure (some (.cframe p (matrixOf [])))
  | .token, .num f => .ok (some (.token (f64ToUint O 32 f)))
  | .reference, .str s => .ok (some (.string s))
  | .vector3int16, .obj m => do
    let x ← num m "x"
    let y ← num m "y"
    let z ← num m "z"
    pure (some (.vector3int16 (f64ToInt O 16 x) (f64ToInt O 16 y) (f64ToInt O 16 z)))
  | .vector2int16, .obj m => do
    let x ← num m "x"
    let y ← num m "y"
    pure (some (.vector2int16 (f64ToInt O 16 x) (f64ToInt O 16 y)))
  | .numberSequence, .arr l => do
    let ks ← toNumberKeypoints l
    pure (some (.numberSequence ks))
  | .colorSequence, .arr l => do
    let ks ← toColorKeypoints l
    pure (some (.colorSequence ks))
  | .numberRange, .obj m => do
    let a ← num32 m "min"
    let b ← num32 m "max"
    pure (some (.numberRange a b))
  | .rect, .obj m => do
    let a ← toVector2 (field m "min")
    let b ← toVector2 (field m "max")
    pure (some (.rect a b))
  | .physicalProperties, .obj m => do
    let c ← boolean m "custom_physics"
    let d ← num32 m "density"
    let f ← num32 m "friction"
    let e ← num32 m "elasticity"
    let fw ← num32 m "friction_weight"
    let ew ← num32 m "elasticity_weight"
    pure (some (.physicalProperties c d f e fw ew))
  | .color3uint8, .obj m => do
    let r ← num m "r"
    let g ← num m "g"
    let b ← num m "b"
    pure (some (.color3uint8 (f64ToUint O 8 r) (f64ToUint O 8 g) (f64ToUint O 8 b)))
  | .int64, .num f => .ok (some (.int64 (f64ToInt O 64 f)))
  | .sharedString, .str s => .ok (some (.sharedString ((b64Decode s).getD s)))
  | _, _ => .ok none

variable (it : Iter)

mutual
/-- `ValueFromJSONInterface` (json/json.go:424-726); `none` is nil. -/
def valueFrom (t : Ty) : JVal → Res (Option (Value ρ))
  | .obj m =>
    if t = .optional then
      match Map.get? m (str "type") with
      | some (.str s) => optionFrom (tyOf (typeFromString it s)) m
      | _ => .panic
    else baseFrom O t (.obj m)
  | j => if t = .optional then .ok none else baseFrom O t j
/-- The end of the case of `TypeOptional` (json/json.go:720-723): the key `value` is looked up. -/
def optionFrom (t : Ty) : List (Bytes × JVal) → Res (Option (Value ρ))
  | [] => .ok (some (.optional t none))
  | (k, v) :: m =>
    if k = str "value" then
      match v with
      | .null => .ok (some (.optional t none))
      | v =>
        match valueFrom t v with
        | .ok (some x) => .ok (some (.optional x.type (some x)))
        | _ => .panic
    else optionFrom t m
end
end

/-- What becomes of an element of `properties`. -/
inductive PropOut where
  | skip
  | value (v : Value Nat)
  | ref (r : Bytes)

/-- The body of the loop over `properties` in `InstanceFromJSONInterface` (json/json.go:211-236). -/
def propFrom (O : Overflow) (it : Iter) (iprop : JVal) : Res PropOut :=
  match index iprop (str "type"), index iprop (str "value") with
  | some (.str typ), some ivalue =>
    let t := tyOf (typeFromString it typ)
    match valueFrom O it t ivalue with
    | .ok (some v) =>
      if t = .reference then
        match v with
        | .string s => .ok (.ref s)
        | _ => .panic
      else .ok (.value v)
    | .ok none => .ok .skip
    | .err e => .err e
    | .panic => .panic
  | _, _ => .ok .skip

/-- The instances, `refs` and `propRefs`. -/
structure JState where
  heap : Heap Nat := []
  refs : References Nat := []
  propRefs : List (PropRef Nat) := []

/-- `inst.Properties[name] = value` and similar updates of the instance `p`. -/
def JState.update (s : JState) (p : Nat) (f : Inst Nat → Inst Nat) : JState :=
  match s.heap.get? p with
  | none => s
  | some i => { s with heap := s.heap.set p (f i) }

/-- The loop over `properties` (json/json.go:211-236). -/
def propsFrom (O : Overflow) (it : Iter) (p : Nat) : List (Bytes × JVal) → JState → Res JState
  | [], s => .ok s
  | (name, iprop) :: ps, s =>
    match propFrom O it iprop with
    | .ok .skip => propsFrom O it p ps s
    | .ok (.value v) => propsFrom O it p ps (s.update p fun i => { i with properties := i.properties.set name v })
    | .ok (.ref r) => propsFrom O it p ps { s with propRefs := s.propRefs ++ [⟨some p, name, r⟩] }
    | .err e => .err e
    | .panic => .panic

/-- The instance an object stands for (json/json.go:190-201): the one with its reference, or a new one. The pointer of a
new instance is the number of instances that exist. -/
def enter (iinst : JVal) (s : JState) : Nat × JState :=
  let ref := match index iinst (str "reference") with
    | some (.str r) => r
    | _ => []
  if isEmptyReference ref then (s.heap.length, { s with heap := s.heap.set s.heap.length { className := [] } })
  else
    match s.refs.get? ref with
    | some (some p) => (p, s)
    | _ => (s.heap.length, { s with
        heap := s.heap.set s.heap.length { className := [], reference := ref }
        refs := s.refs.set ref (some s.heap.length) })

/-- The fields of the instance `p` that are not children (json/json.go:203-236); `cls` is the class name. -/
def fill (O : Overflow) (it : Iter) (iinst : JVal) (p : Nat) (cls : Bytes) (s : JState) : Res JState :=
  let s := s.update p fun i => { i with className := cls }
  let s := match index iinst (str "is_service") with
    | some (.bool b) => s.update p fun i => { i with isService := b }
    | _ => s
  match index iinst (str "properties") with
  | some (.obj ps) => propsFrom O it p (it.run [p] ps) s
  | _ => .ok s

section
variable (O : Overflow) (it : Iter)

mutual
/-- `InstanceFromJSONInterface` (json/json.go:189-250): the instance, nil if it is not ok. -/
def instFrom : JVal → JState → Res (Option Nat × JState)
  | .obj m, s =>
    match Map.get? m (str "class_name") with
    | some (.str cls) => do
      let s' ← fill O it (.obj m) (enter (.obj m) s).1 cls (enter (.obj m) s).2
      let s' ← childrenField m (s'.update (enter (.obj m) s).1 fun i => { i with children := [] })
      pure (some (enter (.obj m) s).1, s')
    | _ => .ok (none, (enter (.obj m) s).2)
  | j, s => .ok (none, (enter j s).2)
/-- The key `children` is looked up (json/json.go:239). -/
def childrenField : List (Bytes × JVal) → JState → Res JState
  | [], s => .ok s
  | (k, v) :: m, s =>
    if k = str "children" then
      match v with
      | .arr l => childrenFrom l s
      | _ => .ok s
    else childrenField m s
/-- The loop over `children` (json/json.go:240-247). The slice has been made with length 0: to store a child in it
panics. -/
def childrenFrom : List JVal → JState → Res JState
  | [], s => .ok s
  | j :: js, s =>
    match instFrom j s with
    | .ok (none, s) => childrenFrom js s
    | .ok (some _, _) => .panic
    | .err e => .err e
    | .panic => .panic
end

/-- The loop over `instances` (json/json.go:135-141). -/
def listFrom : List JVal → JState → Res (List Nat × JState)
  | [], s => .ok ([], s)
  | j :: js, s => do
    let (p, s) ← instFrom O it j s
    let (ps, s) ← listFrom js s
    pure (p.toList ++ ps, s)

/-- The loop over the references of properties (json/json.go:142-146). -/
def setRefs (refs : References Nat) : List (PropRef Nat) → Heap Nat → Heap Nat
  | [], h => h
  | pr :: prs, h => setRefs refs prs (refs.resolve pr h).2

/-- `RootFromJSONInterface` (json/json.go:118-151): the instances and the root, `none` if it is not ok. -/
def rootFrom (iroot : JVal) : Res (Option (Heap Nat × Root Nat)) :=
  match index iroot (str "rbxfile_version") with
  | some (.num version) =>
    if f64ToInt O 64 version = 0#64 then
      match index iroot (str "instances") with
      | some (.arr l) => do
        let (ps, s) ← listFrom O it l {}
        pure (some (setRefs s.refs s.propRefs s.heap, { instances := ps }))
      | _ => .ok none
    else .ok none
  | _ => .ok none
end

/-- `encoding/json`: `Marshal` of an interface and `Unmarshal` into one. -/
structure Text where
  marshal : JVal → Res Bytes
  unmarshal : Bytes → Res JVal

/-- `Encode` (json/json.go:15-17). -/
def encode (T : Text) (gen : Nat → Bytes) (fuel : Nat) (it : Iter) (h : Heap Nat) (pos : Nat) (root : Root Nat) :
    Res Bytes := do
  let (j, _) ← rootTo gen fuel it h pos root
  T.marshal j

/-- `Decode` (json/json.go:19-30). -/
def decode (T : Text) (O : Overflow) (it : Iter) (b : Bytes) : Res (Heap Nat × Root Nat) := do
  let j ← T.unmarshal b
  match ← rootFrom O it j with
  | some r => pure r
  | none => .err (.other "invalid JSON Root object")

end Json

import Verif.Json.Model
import Mathlib.Data.List.Forall2
/-!
# Specification vocabulary: the JSON form of values and instances

Of the model only the types of values and of JSON values are used, and the conversions of numbers of the Go language: `f32to64`,
`intToF64` (to float64), `f64to32` (to float32), `f64ToInt`, `f64ToUint` (to integers; `O` is the result if the number does
not fit).
-/
namespace Spec.JsonForm
open Go Rbxfile Json

/-- The name of a type. -/
def typeName : Ty → String
  | .invalid => "Invalid" | .string => "String" | .binaryString => "BinaryString" | .protectedString => "ProtectedString"
  | .content => "Content" | .bool => "Bool" | .int => "Int" | .float => "Float" | .double => "Double" | .udim => "UDim"
  | .udim2 => "UDim2" | .ray => "Ray" | .faces => "Faces" | .axes => "Axes" | .brickColor => "BrickColor" | .color3 => "Color3"
  | .vector2 => "Vector2" | .vector3 => "Vector3" | .cframe => "CFrame" | .token => "Token" | .reference => "Reference"
  | .vector3int16 => "Vector3int16" | .vector2int16 => "Vector2int16" | .numberSequence => "NumberSequence"
  | .colorSequence => "ColorSequence" | .numberRange => "NumberRange" | .rect => "Rect"
  | .physicalProperties => "PhysicalProperties" | .color3uint8 => "Color3uint8" | .int64 => "Int64"
  | .sharedString => "SharedString" | .optional => "Optional" | .uniqueId => "UniqueId" | .font => "Font"

/-- The types with a name of their own. -/
def types : List Ty := [.string, .binaryString, .protectedString, .content, .bool, .int, .float, .double, .udim, .udim2, .ray,
  .faces, .axes, .brickColor, .color3, .vector2, .vector3, .cframe, .token, .reference, .vector3int16, .vector2int16,
  .numberSequence, .colorSequence, .numberRange, .rect, .physicalProperties, .color3uint8, .int64, .sharedString, .optional,
  .uniqueId, .font]
/-- The type with a name, `invalid` if there is none. -/
def typeOf (s : Bytes) : Ty := (types.find? fun t => str (typeName t) == s).getD .invalid

/-! ## What is written -/

/-- An object with the given fields. -/
def object (fields : List (String × JVal)) : JVal := .obj (fields.map fun x => (str x.1, x.2))
/-- A float32 as a number. -/
def real (f : F32) : JVal := .num (f32to64 f)
/-- An integer as a number. -/
def whole (n : Int) : JVal := .num (intToF64 n)
/-- An object of floats. -/
def reals (fields : List (String × F32)) : JVal := object (fields.map fun x => (x.1, real x.2))
/-- An object of integers. -/
def wholes (fields : List (String × Int)) : JVal := object (fields.map fun x => (x.1, whole x.2))
/-- An object of booleans. -/
def flags (fields : List (String × Bool)) : JVal := object (fields.map fun x => (x.1, .bool x.2))
/-- A UDim. -/
def udim (u : UDim) : JVal := object [("scale", real u.scale), ("offset", whole u.offset.toInt)]
/-- A vector. -/
def vector2 (v : Vector2) : JVal := reals [("x", v.x), ("y", v.y)]
/-- A vector. -/
def vector3 (v : Vector3) : JVal := reals [("x", v.x), ("y", v.y), ("z", v.z)]
/-- A color. -/
def color (c : Color3) : JVal := reals [("r", c.r), ("g", c.g), ("b", c.b)]
/-- Bytes in base 64. What is left over of a group of three bytes is not written. -/
def binary (s : Bytes) : JVal := .str (b64Encode (s.take (s.length - s.length % 3)))

/-- The form of a value; `name` gives the reference of an instance. A UniqueId and a Font have none. -/
def value (name : Nat → Bytes) : Value Nat → JVal
  | .string s => .str s
  | .binaryString s => binary s
  | .protectedString s => .str s
  | .content s => if s = [] then .null else .str s
  | .bool b => .bool b
  | .int n => whole n.toInt
  | .float f => real f
  | .double f => .num f
  | .udim u => udim u
  | .udim2 x y => object [("x", udim x), ("y", udim y)]
  | .ray o d => object [("origin", vector3 o), ("direction", vector3 d)]
  | .faces right top back left bottom front =>
    flags [("right", right), ("top", top), ("back", back), ("left", left), ("bottom", bottom), ("front", front)]
  | .axes x y z => flags [("x", x), ("y", y), ("z", z)]
  | .brickColor n => whole n.toNat
  | .color3 c => color c
  | .vector2 v => vector2 v
  | .vector3 v => vector3 v
  | .cframe p r => object [("position", vector3 p),
      ("rotation", .arr ([r.m0, r.m1, r.m2, r.m3, r.m4, r.m5, r.m6, r.m7, r.m8].map real))]
  | .token n => whole n.toNat
  | .reference none => .str []
  | .reference (some p) => .str (name p)
  | .vector3int16 x y z => wholes [("x", x.toInt), ("y", y.toInt), ("z", z.toInt)]
  | .vector2int16 x y => wholes [("x", x.toInt), ("y", y.toInt)]
  | .numberSequence ks => .arr (ks.map fun k => reals [("time", k.time), ("value", k.value), ("envelope", k.envelope)])
  | .colorSequence ks => .arr (ks.map fun k => object [("time", real k.time), ("value", color k.value),
      ("envelope", real k.envelope)])
  | .numberRange min max => reals [("min", min), ("max", max)]
  | .rect min max => object [("min", vector2 min), ("max", vector2 max)]
  | .physicalProperties custom density friction elasticity frictionWeight elasticityWeight =>
    object [("custom_physics", .bool custom), ("density", real density), ("friction", real friction),
      ("elasticity", real elasticity), ("friction_weight", real frictionWeight), ("elasticity_weight", real elasticityWeight)]
  | .color3uint8 r g b => wholes [("r", r.toNat), ("g", g.toNat), ("b", b.toNat)]
  | .int64 n => whole n.toInt
  | .sharedString s => binary s
  | .optional t none => object [("type", .type t), ("value", .null)]
  | .optional t (some v) => object [("type", .type t), ("value", value name v)]
  | .uniqueId .. => .null
  | .font .. => .null

/-- The reference of an instance. -/
def reference (h : Heap Nat) (p : Nat) : Bytes := ((h.get? p).map Inst.reference).getD []

/-- No instance has an empty reference, and no two have the same. -/
def Distinct (h : Heap Nat) : Prop :=
  (∀ p a, h.get? p = some a → isEmptyReference a.reference = false) ∧
  ∀ p q a b, h.get? p = some a → h.get? q = some b → a.reference = b.reference → p = q

/-- A property: its type and its value. -/
def property (h : Heap Nat) (v : Value Nat) : JVal :=
  object [("type", .str (str (typeName v.type))), ("value", value (reference h) v)]

/-- The forms of instances `ps` of the structure `h`, with all that is below them. The properties may be in any order. -/
inductive Instances (h : Heap Nat) : List Nat → List JVal → Prop
  | nil : Instances h [] []
  | cons {p : Nat} {inst : Inst Nat} {props : List (Bytes × JVal)} {kids : List JVal} {ps : List Nat} {js : List JVal} :
    h.get? p = some inst → props.Perm (inst.properties.map fun x => (x.1, property h x.2)) →
    Instances h inst.children kids → Instances h ps js →
    Instances h (p :: ps) (object [("class_name", .str inst.className), ("reference", .str inst.reference),
      ("is_service", .bool inst.isService), ("properties", .obj props), ("children", .arr kids)] :: js)

/-! ## What is read -/

/-- The object has the number `f` under the key. -/
def Number (m : List (Bytes × JVal)) (key : String) (f : F64) : Prop := Map.get? m (str key) = some (.num f)
/-- The object has the float `f` under the key. -/
def Real (m : List (Bytes × JVal)) (key : String) (f : F32) : Prop := ∃ x, Number m key x ∧ f = f64to32 x
/-- The object has the boolean `b` under the key. -/
def Truth (m : List (Bytes × JVal)) (key : String) (b : Bool) : Prop := Map.get? m (str key) = some (.bool b)
/-- The object has, under the key, an object with a property. -/
def Part (m : List (Bytes × JVal)) (key : String) (P : List (Bytes × JVal) → Prop) : Prop :=
  ∃ m', Map.get? m (str key) = some (.obj m') ∧ P m'
/-- The object has the signed number of `w` bits under the key. -/
def Signed (O : Overflow) (w : Nat) (m : List (Bytes × JVal)) (key : String) (n : BitVec w) : Prop :=
  ∃ x, Number m key x ∧ n = f64ToInt O w x
/-- The object has the unsigned number of `w` bits under the key. -/
def Unsigned (O : Overflow) (w : Nat) (m : List (Bytes × JVal)) (key : String) (n : BitVec w) : Prop :=
  ∃ x, Number m key x ∧ n = f64ToUint O w x

/-- The object is a UDim. -/
def UDimIs (O : Overflow) (u : UDim) (m : List (Bytes × JVal)) : Prop := Real m "scale" u.scale ∧ Signed O 32 m "offset" u.offset
/-- The object is a vector. -/
def Vector2Is (v : Vector2) (m : List (Bytes × JVal)) : Prop := Real m "x" v.x ∧ Real m "y" v.y
/-- The object is a vector. -/
def Vector3Is (v : Vector3) (m : List (Bytes × JVal)) : Prop := Real m "x" v.x ∧ Real m "y" v.y ∧ Real m "z" v.z
/-- The object is a color. -/
def ColorIs (c : Color3) (m : List (Bytes × JVal)) : Prop := Real m "r" c.r ∧ Real m "g" c.g ∧ Real m "b" c.b

/-- The rotation under the key `rotation`: up to nine numbers of a list, the others being 0; zeros if there is no list. -/
def RotationIs (r : Matrix) (m : List (Bytes × JVal)) : Prop :=
  ∃ fs : List F64, [r.m0, r.m1, r.m2, r.m3, r.m4, r.m5, r.m6, r.m7, r.m8] = (fs.map f64to32 ++ List.replicate 9 0#32).take 9 ∧
    ((∃ l, Map.get? m (str "rotation") = some (.arr l) ∧ l.take 9 = fs.map .num) ∨
     ((∀ l, Map.get? m (str "rotation") ≠ some (.arr l)) ∧ fs = []))

/-- A keypoint: what is not an object counts as zeros. -/
def NumberKeypointIs (j : JVal) (k : NumberKeypoint) : Prop :=
  (∃ m, j = .obj m ∧ Real m "time" k.time ∧ Real m "value" k.value ∧ Real m "envelope" k.envelope) ∨
  ((∀ m, j ≠ .obj m) ∧ k = ⟨0, 0, 0⟩)
/-- A keypoint: what is not an object counts as zeros. -/
def ColorKeypointIs (j : JVal) (k : ColorKeypoint) : Prop :=
  (∃ m, j = .obj m ∧ Real m "time" k.time ∧ Part m "value" (ColorIs k.value) ∧ Real m "envelope" k.envelope) ∨
  ((∀ m, j ≠ .obj m) ∧ k = ⟨0, ⟨0, 0, 0⟩, 0⟩)

/-- Bytes in base 64; a text that is not base 64 stands for itself. -/
def Binary (j : JVal) (s : Bytes) : Prop :=
  ∃ x, j = .str x ∧ (b64Decode x = some s ∨ (b64Decode x = none ∧ s = x))
/-- An object with a property. -/
def Obj (j : JVal) (P : List (Bytes × JVal) → Prop) : Prop := ∃ m, j = .obj m ∧ P m

variable {ρ : Type}

/-- The JSON value `j` stands for the value, if the type is `t` (Optional excluded). -/
def Plain (O : Overflow) (t : Ty) (j : JVal) : Value ρ → Prop
  | .string s => (t = .string ∨ t = .reference) ∧ j = .str s
  | .binaryString s => t = .binaryString ∧ Binary j s
  | .protectedString s => t = .protectedString ∧ j = .str s
  | .content s => t = .content ∧ (j = .str s ∨ (j = .null ∧ s = []))
  | .bool b => t = .bool ∧ j = .bool b
  | .int n => t = .int ∧ ∃ f, j = .num f ∧ n = f64ToInt O 32 f
  | .float f => t = .float ∧ ∃ x, j = .num x ∧ f = f64to32 x
  | .double f => t = .double ∧ j = .num f
  | .udim u => t = .udim ∧ Obj j (UDimIs O u)
  | .udim2 x y => t = .udim2 ∧ Obj j fun m => Part m "x" (UDimIs O x) ∧ Part m "y" (UDimIs O y)
  | .ray o d => t = .ray ∧ Obj j fun m => Part m "origin" (Vector3Is o) ∧ Part m "direction" (Vector3Is d)
  | .faces right top back left bottom front => t = .faces ∧ Obj j fun m => Truth m "right" right ∧ Truth m "top" top ∧
      Truth m "back" back ∧ Truth m "left" left ∧ Truth m "bottom" bottom ∧ Truth m "front" front
  | .axes x y z => t = .axes ∧ Obj j fun m => Truth m "x" x ∧ Truth m "y" y ∧ Truth m "z" z
  | .brickColor n => t = .brickColor ∧ ∃ f, j = .num f ∧ n = f64ToUint O 32 f
  | .color3 c => t = .color3 ∧ Obj j (ColorIs c)
  | .vector2 v => t = .vector2 ∧ Obj j (Vector2Is v)
  | .vector3 v => t = .vector3 ∧ Obj j (Vector3Is v)
  | .cframe p r => t = .cframe ∧ Obj j fun m => Part m "position" (Vector3Is p) ∧ RotationIs r m
  | .token n => t = .token ∧ ∃ f, j = .num f ∧ n = f64ToUint O 32 f
  | .reference _ => False
  | .vector3int16 x y z => t = .vector3int16 ∧ Obj j fun m => Signed O 16 m "x" x ∧ Signed O 16 m "y" y ∧ Signed O 16 m "z" z
  | .vector2int16 x y => t = .vector2int16 ∧ Obj j fun m => Signed O 16 m "x" x ∧ Signed O 16 m "y" y
  | .numberSequence ks => t = .numberSequence ∧ ∃ l, j = .arr l ∧ List.Forall₂ NumberKeypointIs l ks
  | .colorSequence ks => t = .colorSequence ∧ ∃ l, j = .arr l ∧ List.Forall₂ ColorKeypointIs l ks
  | .numberRange min max => t = .numberRange ∧ Obj j fun m => Real m "min" min ∧ Real m "max" max
  | .rect min max => t = .rect ∧ Obj j fun m => Part m "min" (Vector2Is min) ∧ Part m "max" (Vector2Is max)
  | .physicalProperties custom density friction elasticity frictionWeight elasticityWeight =>
    t = .physicalProperties ∧ Obj j fun m => Truth m "custom_physics" custom ∧ Real m "density" density ∧
      Real m "friction" friction ∧ Real m "elasticity" elasticity ∧ Real m "friction_weight" frictionWeight ∧
      Real m "elasticity_weight" elasticityWeight
  | .color3uint8 r g b => t = .color3uint8 ∧ Obj j fun m => Unsigned O 8 m "r" r ∧ Unsigned O 8 m "g" g ∧ Unsigned O 8 m "b" b
  | .int64 n => t = .int64 ∧ ∃ f, j = .num f ∧ n = f64ToInt O 64 f
  | .sharedString s => t = .sharedString ∧ Binary j s
  | .optional .. => False
  | .uniqueId .. => False
  | .font .. => False

/-- The JSON value stands for a value, if the type is `t`. `typeOf` gives the type with a name. -/
inductive Reads (O : Overflow) (typeOf : Bytes → Ty) : Ty → JVal → Value ρ → Prop
  | plain {t : Ty} {j : JVal} {v : Value ρ} : Plain O t j v → Reads O typeOf t j v
  | absent {m : List (Bytes × JVal)} {s : Bytes} : Map.get? m (str "type") = some (.str s) →
    (Map.get? m (str "value") = none ∨ Map.get? m (str "value") = some .null) →
    Reads O typeOf .optional (.obj m) (.optional (typeOf s) none)
  | present {m : List (Bytes × JVal)} {s : Bytes} {x : JVal} {v : Value ρ} : Map.get? m (str "type") = some (.str s) →
    Map.get? m (str "value") = some x → x ≠ .null → Reads O typeOf (typeOf s) x v →
    Reads O typeOf .optional (.obj m) (.optional v.type (some v))

end Spec.JsonForm

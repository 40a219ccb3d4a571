import Verif.Json.Model
/-!
# Specification vocabulary: the shape of JSON documents
-/
namespace Spec
open Go Rbxfile Json

/-- The object has a number under the key. -/
def HasNum (m : List (Bytes × JVal)) (k : String) : Prop := ∃ f, Map.get? m (str k) = some (.num f)
/-- The object has a boolean under the key. -/
def HasBool (m : List (Bytes × JVal)) (k : String) : Prop := ∃ b, Map.get? m (str k) = some (.bool b)
/-- The object has, under the key, an object with the given numbers. -/
def HasNums (m : List (Bytes × JVal)) (k : String) (ks : List String) : Prop :=
  ∃ m', Map.get? m (str k) = some (.obj m') ∧ ∀ k' ∈ ks, HasNum m' k'

/-- The value is not an object (or a list of objects) that lacks a part a value of the type has. Objects for Optional are
excluded. -/
def Shaped : Ty → JVal → Prop
  | .udim, .obj m => HasNum m "scale" ∧ HasNum m "offset"
  | .udim2, .obj m => HasNums m "x" ["scale", "offset"] ∧ HasNums m "y" ["scale", "offset"]
  | .ray, .obj m => HasNums m "origin" ["x", "y", "z"] ∧ HasNums m "direction" ["x", "y", "z"]
  | .faces, .obj m => ∀ k ∈ ["right", "top", "back", "left", "bottom", "front"], HasBool m k
  | .axes, .obj m => ∀ k ∈ ["x", "y", "z"], HasBool m k
  | .color3, .obj m => ∀ k ∈ ["r", "g", "b"], HasNum m k
  | .vector2, .obj m => ∀ k ∈ ["x", "y"], HasNum m k
  | .vector3, .obj m => ∀ k ∈ ["x", "y", "z"], HasNum m k
  | .cframe, .obj m => HasNums m "position" ["x", "y", "z"] ∧
      ∀ l, Map.get? m (str "rotation") = some (.arr l) → ∀ j ∈ l.take 9, ∃ f, j = .num f
  | .vector3int16, .obj m => ∀ k ∈ ["x", "y", "z"], HasNum m k
  | .vector2int16, .obj m => ∀ k ∈ ["x", "y"], HasNum m k
  | .numberSequence, .arr l => ∀ m, .obj m ∈ l → ∀ k ∈ ["time", "value", "envelope"], HasNum m k
  | .colorSequence, .arr l => ∀ m, .obj m ∈ l → HasNum m "time" ∧ HasNums m "value" ["r", "g", "b"] ∧ HasNum m "envelope"
  | .numberRange, .obj m => ∀ k ∈ ["min", "max"], HasNum m k
  | .rect, .obj m => HasNums m "min" ["x", "y"] ∧ HasNums m "max" ["x", "y"]
  | .physicalProperties, .obj m => HasBool m "custom_physics" ∧
      ∀ k ∈ ["density", "friction", "elasticity", "friction_weight", "elasticity_weight"], HasNum m k
  | .color3uint8, .obj m => ∀ k ∈ ["r", "g", "b"], HasNum m k
  | .optional, .obj _ => False
  | _, _ => True

/-- The value is an object with a class name: it stands for an instance. -/
def IsInstance (j : JVal) : Prop := ∃ m cls, j = .obj m ∧ Map.get? m (str "class_name") = some (.str cls)

/-- An element of `instances`: no instance among its children, and the values of its properties have the shape of the type
they are declared with. `T` is the type with a name. -/
def ShapedInstance (T : Bytes → Ty) (j : JVal) : Prop := ∀ m, j = .obj m →
  (∀ l, Map.get? m (str "children") = some (.arr l) → ∀ c ∈ l, ¬ IsInstance c) ∧
  ∀ ps, Map.get? m (str "properties") = some (.obj ps) → ∀ n pm, (n, .obj pm) ∈ ps →
    ∀ t v, Map.get? pm (str "type") = some (.str t) → Map.get? pm (str "value") = some v → Shaped (T t) v

/-- The kind of JSON value that stands for a value of the type: for any other kind there is no value. -/
def Kind : Ty → JVal → Prop
  | .string, .str _ | .binaryString, .str _ | .protectedString, .str _ | .content, .null | .content, .str _
  | .reference, .str _ | .sharedString, .str _ => True
  | .bool, .bool _ => True
  | .int, .num _ | .float, .num _ | .double, .num _ | .brickColor, .num _ | .token, .num _ | .int64, .num _ => True
  | .udim, .obj _ | .udim2, .obj _ | .ray, .obj _ | .faces, .obj _ | .axes, .obj _ | .color3, .obj _ | .vector2, .obj _
  | .vector3, .obj _ | .cframe, .obj _ | .vector3int16, .obj _ | .vector2int16, .obj _ | .numberRange, .obj _
  | .rect, .obj _ | .physicalProperties, .obj _ | .color3uint8, .obj _ | .optional, .obj _ => True
  | .numberSequence, .arr _ | .colorSequence, .arr _ => True
  | _, _ => False

/-- The value can be converted to the type without a panic. An object for an Optional has a string `type`; if it has a
`value`, this is null or stands for a value of that type and can be converted to it. -/
inductive WellShaped (T : Bytes → Ty) : Ty → JVal → Prop
  | plain {t : Ty} {j : JVal} : t ≠ .optional → Shaped t j → WellShaped T t j
  | none {j : JVal} : (∀ m, j ≠ .obj m) → WellShaped T .optional j
  | absent {m : List (Bytes × JVal)} {t : Bytes} : Map.get? m (str "type") = some (.str t) →
    Map.get? m (str "value") = Option.none → WellShaped T .optional (.obj m)
  | null {m : List (Bytes × JVal)} {t : Bytes} : Map.get? m (str "type") = some (.str t) →
    Map.get? m (str "value") = some .null → WellShaped T .optional (.obj m)
  | value {m : List (Bytes × JVal)} {t : Bytes} {v : JVal} : Map.get? m (str "type") = some (.str t) →
    Map.get? m (str "value") = some v → Kind (T t) v → WellShaped T (T t) v → WellShaped T .optional (.obj m)

/-- An element of `instances` that can be converted without a panic: if it stands for an instance, no child stands for an
instance, and the value of each property can be converted to its type. -/
def WellShapedInstance (T : Bytes → Ty) (j : JVal) : Prop := ∀ m cls, j = .obj m →
  Map.get? m (str "class_name") = some (.str cls) →
  (∀ l, Map.get? m (str "children") = some (.arr l) → ∀ c ∈ l, ¬ IsInstance c) ∧
  ∀ ps, Map.get? m (str "properties") = some (.obj ps) → ∀ n pm, (n, .obj pm) ∈ ps →
    ∀ t v, Map.get? pm (str "type") = some (.str t) → Map.get? pm (str "value") = some v → WellShaped T (T t) v

end Spec

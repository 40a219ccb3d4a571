import Verif.Rbxl.CodecValues
/-!
# C56: the tables that relate value types, binary types and values
-/
namespace Props
open Go Rbxfile Rbxl

/-- The types that the binary format stores as String. -/
def isStringLike : Ty → Bool
  | .string | .binaryString | .protectedString | .content => true
  | _ => false

/-- C56: the binary type of a value type has that value type again; all string types have the binary
type String; only the invalid type has no binary type. -/
theorem C56_value_types (t : Ty) :
    (fromValueType t = none ↔ t = .invalid) ∧
    (∀ b, fromValueType t = some b → if isStringLike t then b = .string else b.valueType = t) := by
  cases t <;> simp [fromValueType, isStringLike, TypeID.valueType]

/-- C56: conversely, every binary type but the quaternion CFrame is the binary type of its value
type. -/
theorem C56_binary_types (b : TypeID) :
    fromValueType b.valueType = some (if b = .cframeQuat then .cframe else b) := by
  cases b <;> rfl

/-- C56: the binary form of a value has the binary type of the type of the value; only Reference,
SharedString and Optional are not converted by themselves. -/
theorem C56_encoded_type {ρ : Type} (v : Value ρ) :
    (∀ x, encodeValue v = some x → fromValueType v.type = some x.type) ∧
    (encodeValue v = none ↔ v.type = .reference ∨ v.type = .sharedString ∨ v.type = .optional) := by
  cases v <;> (try simp [encodeValue, fromValueType, Value.type, Val.type])
  · rename_i rot
    cases cframeSpecialNumber rot <;> simp [Val.type]

/-- C56: the value read from a binary value has the value type of the binary type. -/
theorem C56_decoded_type {ρ : Type} (quat : Quat) (x : Val) :
    (∀ v : Value ρ, decodeValue quat x = some v → v.type = x.type.valueType) ∧
    ((decodeValue quat x : Option (Value ρ)) = none ↔ x.type = .reference ∨ x.type = .sharedString) := by
  cases x <;> simp [decodeValue, Value.type, Val.type, TypeID.valueType]

/-- C56: the default value of a binary type has that type. -/
theorem C56_new_value (b : TypeID) :
    (∀ x, newValue b = some x → x.type = b) ∧ (newValue b = none ↔ b = .optional) := by
  cases b <;> simp [newValue, Val.type]

example : fromValueType .content = some .string ∧ fromValueType .rect = some .rect ∧
    (encodeValue (.udim ⟨1, 2⟩ : Value Nat)).map Val.type = some .udim := ⟨rfl, rfl, rfl⟩

end Props

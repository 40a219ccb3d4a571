import Verif.Go.Map
/-!
# Values and instances (values.go, file.go)
-/
namespace Rbxfile
open Go

/-- `Type` (values.go:10, 22-57). Values of the Go type above `TypeFont` behave like `invalid` and
are not represented. -/
inductive Ty where
  | invalid | string | binaryString | protectedString | content | bool | int | float | double
  | udim | udim2 | ray | faces | axes | brickColor | color3 | vector2 | vector3 | cframe | token
  | reference | vector3int16 | vector2int16 | numberSequence | colorSequence | numberRange | rect
  | physicalProperties | color3uint8 | int64 | sharedString | optional | uniqueId | font
  deriving DecidableEq, Repr, Inhabited

/-- `ValueVector3` (values.go:556-558). -/
structure Vector3 where
  x : F32
  y : F32
  z : F32
  deriving DecidableEq, Repr, Inhabited

/-- `ValueVector2` (values.go:532-534). -/
structure Vector2 where
  x : F32
  y : F32
  deriving DecidableEq, Repr, Inhabited

/-- `ValueUDim` (values.go:340-343). -/
structure UDim where
  scale : F32
  offset : BitVec 32
  deriving DecidableEq, Repr, Inhabited

/-- `ValueColor3` (values.go:506-508). -/
structure Color3 where
  r : F32
  g : F32
  b : F32
  deriving DecidableEq, Repr, Inhabited

/-- `[9]float32`. -/
structure Matrix where
  m0 : F32
  m1 : F32
  m2 : F32
  m3 : F32
  m4 : F32
  m5 : F32
  m6 : F32
  m7 : F32
  m8 : F32
  deriving DecidableEq, Repr, Inhabited

/-- `ValueNumberSequenceKeypoint` (values.go:704-706). -/
structure NumberKeypoint where
  time : F32
  value : F32
  envelope : F32
  deriving DecidableEq, Repr, Inhabited

/-- `ValueColorSequenceKeypoint` (values.go:743-747). -/
structure ColorKeypoint where
  time : F32
  value : Color3
  envelope : F32
  deriving DecidableEq, Repr, Inhabited

/-- The Go types implementing `Value` (values.go:184-1188). `ρ` is the type of pointers to
instances; `none` is the nil pointer. A nil interface of type `Value` is not represented. -/
inductive Value (ρ : Type) where
  | string (s : Bytes)
  | binaryString (s : Bytes)
  | protectedString (s : Bytes)
  | content (s : Bytes)
  | bool (b : Bool)
  | int (n : BitVec 32)
  | float (f : F32)
  | double (f : F64)
  | udim (u : UDim)
  | udim2 (x y : UDim)
  | ray (origin direction : Vector3)
  | faces (right top back left bottom front : Bool)
  | axes (x y z : Bool)
  | brickColor (n : BitVec 32)
  | color3 (c : Color3)
  | vector2 (v : Vector2)
  | vector3 (v : Vector3)
  | cframe (position : Vector3) (rotation : Matrix)
  | token (n : BitVec 32)
  | reference (inst : Option ρ)
  | vector3int16 (x y z : BitVec 16)
  | vector2int16 (x y : BitVec 16)
  | numberSequence (ks : List NumberKeypoint)
  | colorSequence (ks : List ColorKeypoint)
  | numberRange (min max : F32)
  | rect (min max : Vector2)
  | physicalProperties (custom : Bool)
      (density friction elasticity frictionWeight elasticityWeight : F32)
  | color3uint8 (r g b : Byte)
  | int64 (n : BitVec 64)
  | sharedString (s : Bytes)
  | optional (typ : Ty) (value : Option (Value ρ))
  | uniqueId (random : BitVec 64) (time index : BitVec 32)
  | font (family : Bytes) (weight : BitVec 16) (style : Byte) (cachedFaceId : Bytes)
  deriving Repr, Inhabited

namespace Value
variable {ρ : Type}

/-- `Value.Type` (the `Type` methods of values.go). -/
def type : Value ρ → Ty
  | string .. => .string | binaryString .. => .binaryString
  | protectedString .. => .protectedString | content .. => .content | bool .. => .bool
  | int .. => .int | float .. => .float | double .. => .double | udim .. => .udim
  | udim2 .. => .udim2 | ray .. => .ray | faces .. => .faces | axes .. => .axes
  | brickColor .. => .brickColor | color3 .. => .color3 | vector2 .. => .vector2
  | vector3 .. => .vector3 | cframe .. => .cframe | token .. => .token
  | reference .. => .reference | vector3int16 .. => .vector3int16
  | vector2int16 .. => .vector2int16 | numberSequence .. => .numberSequence
  | colorSequence .. => .colorSequence | numberRange .. => .numberRange | rect .. => .rect
  | physicalProperties .. => .physicalProperties | color3uint8 .. => .color3uint8
  | int64 .. => .int64 | sharedString .. => .sharedString | optional .. => .optional
  | uniqueId .. => .uniqueId | font .. => .font

end Value

/-- `Instance` (file.go:70-89). -/
structure Inst (ρ : Type) where
  className : Bytes
  reference : Bytes := []
  isService : Bool := false
  properties : Map Bytes (Value ρ) := []
  children : List ρ := []
  deriving Repr, Inhabited

/-- The instances a pointer of type `ρ` may point to. A pointer that is not in the heap stands for
an invalid (nil) pointer. -/
abbrev Heap (ρ : Type) := Map ρ (Inst ρ)

/-- `Root` (file.go:26-32); a nil and an empty `Metadata` are not distinguished. -/
structure Root (ρ : Type) where
  instances : List ρ := []
  metadata : Map Bytes Bytes := []
  deriving Repr, Inhabited

end Rbxfile

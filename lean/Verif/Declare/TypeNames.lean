import Verif.Rbxfile.Names
/-!
# Type names (declare/type.go:9-100)
-/
namespace Declare
open Go Rbxfile

/-- `typeStrings` (declare/type.go:68-99). -/
def typeStrings : Map Byte Bytes := [
  (1#8, str "String"), (2#8, str "BinaryString"), (3#8, str "ProtectedString"), (4#8, str "Content"), (5#8, str "Bool"),
  (6#8, str "Int"), (7#8, str "Float"), (8#8, str "Double"), (9#8, str "UDim"), (10#8, str "UDim2"), (11#8, str "Ray"),
  (12#8, str "Faces"), (13#8, str "Axes"), (14#8, str "BrickColor"), (15#8, str "Color3"), (16#8, str "Vector2"),
  (17#8, str "Vector3"), (18#8, str "CFrame"), (19#8, str "Token"), (20#8, str "Reference"), (21#8, str "Vector3int16"),
  (22#8, str "Vector2int16"), (23#8, str "NumberSequence"), (24#8, str "ColorSequence"), (25#8, str "NumberRange"),
  (26#8, str "Rect"), (27#8, str "PhysicalProperties"), (28#8, str "Color3uint8"), (29#8, str "Int64"),
  (30#8, str "SharedString")]

/-- A byte in lower case. -/
def lowerByte (b : Byte) : Byte := if 65 ≤ b.toNat ∧ b.toNat ≤ 90 then BitVec.ofNat 8 (b.toNat + 32) else b

/-- `strings.ToLower`: byte by byte for ASCII strings; `other` is what it does with others. -/
def toLower (other : Bytes → Bytes) (s : Bytes) : Bytes :=
  if s.all fun b => decide (b.toNat < 128) then s.map lowerByte else other s

/-- `Type.String` (declare/type.go:14-20). -/
def typeString (t : Byte) : Bytes := (typeStrings.get? t).getD (str "Invalid")

/-- `TypeFromString` (declare/type.go:58-66); `it` is the order of iteration over the map. -/
def typeFromString (other : Bytes → Bytes) (it : Iter) (s : Bytes) : Byte :=
  match (it.run [] typeStrings).find? fun e => toLower other s == toLower other e.2 with
  | some e => e.1
  | none => 0

end Declare

import Verif.Rbxfile.Values
/-!
# Values can be compared
-/
namespace Rbxfile
namespace Value
variable {ρ : Type} [DecidableEq ρ]

/-- The same value, as a test. -/
def same : Value ρ → Value ρ → Bool
  | .string a0, .string b0 => decide (a0 = b0)
  | .binaryString a0, .binaryString b0 => decide (a0 = b0)
  | .protectedString a0, .protectedString b0 => decide (a0 = b0)
  | .content a0, .content b0 => decide (a0 = b0)
  | .bool a0, .bool b0 => decide (a0 = b0)
  | .int a0, .int b0 => decide (a0 = b0)
  | .float a0, .float b0 => decide (a0 = b0)
  | .double a0, .double b0 => decide (a0 = b0)
  | .udim a0, .udim b0 => decide (a0 = b0)
  | .udim2 a0 a1, .udim2 b0 b1 => decide (a0 = b0) && decide (a1 = b1)
  | .ray a0 a1, .ray b0 b1 => decide (a0 = b0) && decide (a1 = b1)
  | .faces a0 a1 a2 a3 a4 a5, .faces b0 b1 b2 b3 b4 b5 => decide (a0 = b0) && decide (a1 = b1) && decide (a2 = b2) && decide (a3 = b3) && decide (a4 = b4) && decide (a5 = b5)
  | .axes a0 a1 a2, .axes b0 b1 b2 => decide (a0 = b0) && decide (a1 = b1) && decide (a2 = b2)
  | .brickColor a0, .brickColor b0 => decide (a0 = b0)
  | .color3 a0, .color3 b0 => decide (a0 = b0)
  | .vector2 a0, .vector2 b0 => decide (a0 = b0)
  | .vector3 a0, .vector3 b0 => decide (a0 = b0)
  | .cframe a0 a1, .cframe b0 b1 => decide (a0 = b0) && decide (a1 = b1)
  | .token a0, .token b0 => decide (a0 = b0)
  | .reference a0, .reference b0 => decide (a0 = b0)
  | .vector3int16 a0 a1 a2, .vector3int16 b0 b1 b2 => decide (a0 = b0) && decide (a1 = b1) && decide (a2 = b2)
  | .vector2int16 a0 a1, .vector2int16 b0 b1 => decide (a0 = b0) && decide (a1 = b1)
  | .numberSequence a0, .numberSequence b0 => decide (a0 = b0)
  | .colorSequence a0, .colorSequence b0 => decide (a0 = b0)
  | .numberRange a0 a1, .numberRange b0 b1 => decide (a0 = b0) && decide (a1 = b1)
  | .rect a0 a1, .rect b0 b1 => decide (a0 = b0) && decide (a1 = b1)
  | .physicalProperties a0 a1 a2 a3 a4 a5, .physicalProperties b0 b1 b2 b3 b4 b5 => decide (a0 = b0) && decide (a1 = b1) && decide (a2 = b2) && decide (a3 = b3) && decide (a4 = b4) && decide (a5 = b5)
  | .color3uint8 a0 a1 a2, .color3uint8 b0 b1 b2 => decide (a0 = b0) && decide (a1 = b1) && decide (a2 = b2)
  | .int64 a0, .int64 b0 => decide (a0 = b0)
  | .sharedString a0, .sharedString b0 => decide (a0 = b0)
  | .uniqueId a0 a1 a2, .uniqueId b0 b1 b2 => decide (a0 = b0) && decide (a1 = b1) && decide (a2 = b2)
  | .font a0 a1 a2 a3, .font b0 b1 b2 b3 => decide (a0 = b0) && decide (a1 = b1) && decide (a2 = b2) && decide (a3 = b3)
  | .optional t none, .optional u none => decide (t = u)
  | .optional t (some a), .optional u (some b) => decide (t = u) && same a b
  | _, _ => false

theorem same_refl : ∀ a : Value ρ, same a a = true
  | .optional t (some a) => by simp [same, same_refl a]
  | .optional t none => by simp [same]
  | .string _ => by simp [same]
  | .binaryString _ => by simp [same]
  | .protectedString _ => by simp [same]
  | .content _ => by simp [same]
  | .bool _ => by simp [same]
  | .int _ => by simp [same]
  | .float _ => by simp [same]
  | .double _ => by simp [same]
  | .udim _ => by simp [same]
  | .udim2 _ _ => by simp [same]
  | .ray _ _ => by simp [same]
  | .faces _ _ _ _ _ _ => by simp [same]
  | .axes _ _ _ => by simp [same]
  | .brickColor _ => by simp [same]
  | .color3 _ => by simp [same]
  | .vector2 _ => by simp [same]
  | .vector3 _ => by simp [same]
  | .cframe _ _ => by simp [same]
  | .token _ => by simp [same]
  | .reference _ => by simp [same]
  | .vector3int16 _ _ _ => by simp [same]
  | .vector2int16 _ _ => by simp [same]
  | .numberSequence _ => by simp [same]
  | .colorSequence _ => by simp [same]
  | .numberRange _ _ => by simp [same]
  | .rect _ _ => by simp [same]
  | .physicalProperties _ _ _ _ _ _ => by simp [same]
  | .color3uint8 _ _ _ => by simp [same]
  | .int64 _ => by simp [same]
  | .sharedString _ => by simp [same]
  | .uniqueId _ _ _ => by simp [same]
  | .font _ _ _ _ => by simp [same]

theorem eq_of_same (a b : Value ρ) (h : same a b = true) : a = b := by
  fun_induction same a b
  all_goals simp_all

instance : DecidableEq (Value ρ) := fun a b =>
  decidable_of_iff (same a b = true) ⟨eq_of_same a b, fun h => h ▸ same_refl a⟩

end Value

deriving instance DecidableEq for Inst
deriving instance DecidableEq for Root

end Rbxfile

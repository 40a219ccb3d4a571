import Verif.Rbxlx.GoFloat
import Verif.Rbxlx.TreeTotal
import Verif.Spec.XmlValue
/-!
# What is read back meets the specification
-/
namespace Rbxlx
open Go Rbxfile Spec

variable {ρ : Type} [DecidableEq ρ]

theorem same32 (f : F32) : SameFloat f (back32 goFloat 9 f) := by
  rw [back32_exact]
  split
  · rename_i h
    exact .inr ⟨h, by decide⟩
  · exact .inl rfl

theorem parse32_fix {p : Nat} (hu : Usable fmt32 p) (f : F32) :
    goFloat.parse32 (goFloat.format32 p f) = goFloat.parse32 (fixFloatExp (goFloat.format32 p f)) := by
  have hI : fmt32.inf = 0x7f800000 := by decide
  have key : fmt32.parse 0x7fc00000 (fmt32.format p (decide (2 ^ 31 ≤ f.toNat)) (f.toNat % 2 ^ 31)) =
      fmt32.parse 0x7fc00000 (fixFloatExp (fmt32.format p (decide (2 ^ 31 ≤ f.toNat)) (f.toNat % 2 ^ 31))) := by
    generalize decide (2 ^ 31 ≤ f.toNat) = neg
    generalize f.toNat % 2 ^ 31 = n
    by_cases h : 0 < n ∧ n < fmt32.inf
    · obtain ⟨h1, h2⟩ := format_parse hu 0x7fc00000 neg h.1 h.2
      rw [h1, h2]
    · rcases Nat.lt_trichotomy fmt32.inf n with h' | h' | h'
      · rw [format_nan fmt32 p neg h']; decide +kernel
      · rw [format_inf p neg h']; cases neg <;> decide +kernel
      · have : n = 0 := by omega
        rw [this, format_zero fmt32 p neg (by decide)]; cases neg <;> decide +kernel
  simp only [goFloat, key]

theorem six32 (f : F32) : SixDigits f (back32 goFloat 6 f) := by
  unfold SixDigits
  rw [parse32_fix usable32_6]
  exact parse_seq goFloat_readable f

theorem nine64 (f : F64) : NineDigits f (back64 goFloat f) := parse_double goFloat_readable f

theorem sameU (u : UDim) : SameUDim u ⟨back32 goFloat 9 u.scale, u.offset⟩ := ⟨same32 _, rfl⟩
theorem same3 (v : Vector3) : SameVector3 v (back3 goFloat v) := ⟨same32 _, same32 _, same32 _⟩
theorem same2 (v : Vector2) : SameVector2 v (back2 goFloat v) := ⟨same32 _, same32 _⟩
theorem sameM (r : Matrix) : SameRotation r (backM goFloat r) :=
  ⟨same32 _, same32 _, same32 _, same32 _, same32 _, same32 _, same32 _, same32 _, same32 _⟩

theorem each_map {α : Type} {R : α → α → Prop} {g : α → α} (h : ∀ a, R a (g a)) : ∀ l : List α, Each R l (l.map g)
  | [] => .nil
  | a :: l => .cons (h a) (each_map h l)

/-- A supported value is kept. -/
theorem kept_final (d : Bool) (φ : ρ → Option Nat) (v : Value ρ) (hv : XmlSupported v) :
    ∃ w, finalValue goFloat d false φ v = some w ∧ XmlKept φ v w := by
  cases v with
  | reference p =>
    cases p with
    | none => exact ⟨_, rfl, rfl⟩
    | some q => exact ⟨_, rfl, rfl⟩
  | brickColor n => exact absurd hv id
  | ray o dir =>
    have : o = dir := hv
    subst this
    exact ⟨_, rfl, _, _, rfl, same3 _, same3 _⟩
  | token n =>
    refine ⟨_, rfl, ?_⟩
    have : n.toNat < 2 ^ 31 := hv
    simp only [if_pos this, XmlKept]
  | font fam w st c =>
    obtain ⟨h1, h2⟩ : w.toNat < 2 ^ 15 ∧ st.toNat ≤ 1 := hv
    refine ⟨.font (normText fam) w st (normText c), ?_, rfl⟩
    simp only [finalValue, backValue, h1, h2, if_true]
  | optional t o =>
    cases o with
    | none =>
      have : t ≠ .optional := hv
      refine ⟨_, rfl, ?_⟩
      simp only [this, if_false, XmlKept]
    | some x =>
      obtain ⟨h1, h2⟩ : t = .cframe ∧ x.type = .cframe := hv
      subst h1
      cases x with
      | cframe p r => exact ⟨_, rfl, _, rfl, _, _, rfl, same3 _, sameM _⟩
      | _ => cases h2
  | float f => exact ⟨_, rfl, _, rfl, same32 _⟩
  | double f => exact ⟨_, rfl, _, rfl, nine64 _⟩
  | udim u => exact ⟨_, rfl, _, rfl, sameU _⟩
  | udim2 x y => exact ⟨_, rfl, _, _, rfl, sameU _, sameU _⟩
  | color3 c => exact ⟨_, rfl, _, _, _, rfl, same32 _, same32 _, same32 _⟩
  | vector2 v => exact ⟨_, rfl, _, rfl, same2 _⟩
  | vector3 v => exact ⟨_, rfl, _, rfl, same3 _⟩
  | cframe p r => exact ⟨_, rfl, _, _, rfl, same3 _, sameM _⟩
  | numberSequence ks => exact ⟨_, rfl, _, rfl, each_map (fun k => ⟨six32 _, six32 _, six32 _⟩) ks⟩
  | colorSequence ks =>
    exact ⟨_, rfl, _, rfl, each_map (fun k => ⟨six32 _, six32 _, six32 _, six32 _, six32 _⟩) ks⟩
  | numberRange a b => exact ⟨_, rfl, _, _, rfl, six32 _, six32 _⟩
  | rect a b => exact ⟨_, rfl, _, _, rfl, same2 _, same2 _⟩
  | physicalProperties c dn f e fw ew =>
    cases c with
    | false => exact ⟨_, rfl, rfl⟩
    | true => exact ⟨_, rfl, _, _, _, _, _, rfl, same32 _, same32 _, same32 _, same32 _, same32 _⟩
  | _ => exact ⟨_, rfl, rfl⟩

end Rbxlx

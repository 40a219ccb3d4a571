import Verif.Declare.Model
/-!
# Specification vocabulary: declared values

`Documented` transcribes the documentation of `Property` (declare/declare.go:188-298).
-/
namespace Spec
open Go Rbxfile Declare

section
variable {ρ : Type}

/-- A Go number as a 32 bit float: the nearest one. -/
def FloatOf (v : GoVal ρ) (f : F32) : Prop :=
  match v with
  | .int _ n => f = intToF32 n
  | .f32 g => f = g
  | .f64 g => f = f64to32 g
  | _ => False

/-- A Go number as a 64 bit float. -/
def DoubleOf (v : GoVal ρ) (f : F64) : Prop :=
  match v with
  | .int _ n => f = intToF64 n
  | .f32 g => f = f32to64 g
  | .f64 g => f = g
  | _ => False

/-- A Go number that is the integer `n` when the fraction is discarded. -/
def Whole (v : GoVal ρ) (n : Int) : Prop :=
  match v with
  | .int _ m => n = m
  | .f32 g => mag64 (f32to64 g) < fmt64.inf ∧ n = trunc64 (f32to64 g)
  | .f64 g => mag64 g < fmt64.inf ∧ n = trunc64 g
  | _ => False

/-- A Go number as a signed integer, which must be in range. -/
def IntOf {w : Nat} (v : GoVal ρ) (x : BitVec w) : Prop := Whole v x.toInt
/-- A Go number as an unsigned integer, which must be in range. -/
def UintOf {w : Nat} (v : GoVal ρ) (x : BitVec w) : Prop := Whole v (x.toNat : Int)

/-- A string or `[]byte`. -/
def TextOf (v : GoVal ρ) (s : Bytes) : Prop := v = .string s ∨ v = .bytes s

/-- A list of groups of three numbers and the keypoints they describe. -/
inductive NumberGroups : List (GoVal ρ) → List NumberKeypoint → Prop
  | nil : NumberGroups [] []
  | cons {a b c : GoVal ρ} {l : List (GoVal ρ)} {t v e : F32} {ks : List NumberKeypoint} : FloatOf a t → FloatOf b v → FloatOf c e →
      NumberGroups l ks → NumberGroups (a :: b :: c :: l) (⟨t, v, e⟩ :: ks)

/-- A list of groups of a number, a color and a number. -/
inductive ColorGroups : List (GoVal ρ) → List ColorKeypoint → Prop
  | nil : ColorGroups [] []
  | cons {a b : GoVal ρ} {l : List (GoVal ρ)} {t e : F32} {c : Color3} {ks : List ColorKeypoint} : FloatOf a t → FloatOf b e →
      ColorGroups l ks → ColorGroups (a :: .value (.color3 c) :: b :: l) (⟨t, c, e⟩ :: ks)

/-- A list of groups of five numbers. -/
inductive ColorNumbers : List (GoVal ρ) → List ColorKeypoint → Prop
  | nil : ColorNumbers [] []
  | cons {a b c d g : GoVal ρ} {l : List (GoVal ρ)} {t x y z e : F32} {ks : List ColorKeypoint} : FloatOf a t → FloatOf b x →
      FloatOf c y → FloatOf d z → FloatOf g e → ColorNumbers l ks →
      ColorNumbers (a :: b :: c :: d :: g :: l) (⟨t, ⟨x, y, z⟩, e⟩ :: ks)

/-- The values that a property may be declared with, and the value that they stand for, for each type. `ref` is how texts
are resolved. -/
inductive Documented (ref : Bytes → Option ρ) : Ty → List (GoVal ρ) → Value ρ → Prop
  | same {t : Ty} {v : Value ρ} : v.type = t → t ≠ .optional → t ≠ .uniqueId → t ≠ .font → Documented ref t [.value v] v
  | string {a l s} : TextOf a s → Documented ref .string (a :: l) (.string s)
  | binaryString {a l s} : TextOf a s → Documented ref .binaryString (a :: l) (.binaryString s)
  | protectedString {a l s} : TextOf a s → Documented ref .protectedString (a :: l) (.protectedString s)
  | content {a l s} : TextOf a s → Documented ref .content (a :: l) (.content s)
  | sharedString {a l s} : TextOf a s → Documented ref .sharedString (a :: l) (.sharedString s)
  | bool {b l} : Documented ref .bool (.bool b :: l) (.bool b)
  | int {a l x} : IntOf a x → Documented ref .int (a :: l) (.int x)
  | float {a l f} : FloatOf a f → Documented ref .float (a :: l) (.float f)
  | double {a l f} : DoubleOf a f → Documented ref .double (a :: l) (.double f)
  | brickColor {a l x} : UintOf a x → Documented ref .brickColor (a :: l) (.brickColor x)
  | token {a l x} : UintOf a x → Documented ref .token (a :: l) (.token x)
  | int64 {a l x} : IntOf a x → Documented ref .int64 (a :: l) (.int64 x)
  | udim {a b s o} : FloatOf a s → IntOf b o → Documented ref .udim [a, b] (.udim ⟨s, o⟩)
  | udim2 {x y} : Documented ref .udim2 [.value (.udim x), .value (.udim y)] (.udim2 x y)
  | udim2Numbers {a b c d xs xo ys yo} : FloatOf a xs → IntOf b xo → FloatOf c ys → IntOf d yo →
      Documented ref .udim2 [a, b, c, d] (.udim2 ⟨xs, xo⟩ ⟨ys, yo⟩)
  | ray {o d} : Documented ref .ray [.value (.vector3 o), .value (.vector3 d)] (.ray o d)
  | rayNumbers {a b c d e f ox oy oz dx dy dz} : FloatOf a ox → FloatOf b oy → FloatOf c oz → FloatOf d dx → FloatOf e dy →
      FloatOf f dz → Documented ref .ray [a, b, c, d, e, f] (.ray ⟨ox, oy, oz⟩ ⟨dx, dy, dz⟩)
  | faces {r t b l bo f} : Documented ref .faces [.bool r, .bool t, .bool b, .bool l, .bool bo, .bool f] (.faces r t b l bo f)
  | axes {x y z} : Documented ref .axes [.bool x, .bool y, .bool z] (.axes x y z)
  | color3 {a b c r g bl} : FloatOf a r → FloatOf b g → FloatOf c bl → Documented ref .color3 [a, b, c] (.color3 ⟨r, g, bl⟩)
  | vector2 {a b x y} : FloatOf a x → FloatOf b y → Documented ref .vector2 [a, b] (.vector2 ⟨x, y⟩)
  | vector2int16 {a b x y} : IntOf a x → IntOf b y → Documented ref .vector2int16 [a, b] (.vector2int16 x y)
  | vector3 {a b c x y z} : FloatOf a x → FloatOf b y → FloatOf c z → Documented ref .vector3 [a, b, c] (.vector3 ⟨x, y, z⟩)
  | vector3int16 {a b c x y z} : IntOf a x → IntOf b y → IntOf c z →
      Documented ref .vector3int16 [a, b, c] (.vector3int16 x y z)
  | cframe {p a b c d e f g h i ra rb rc rd re rf rg rh ri} : FloatOf a ra → FloatOf b rb → FloatOf c rc → FloatOf d rd →
      FloatOf e re → FloatOf f rf → FloatOf g rg → FloatOf h rh → FloatOf i ri →
      Documented ref .cframe [.value (.vector3 p), a, b, c, d, e, f, g, h, i] (.cframe p ⟨ra, rb, rc, rd, re, rf, rg, rh, ri⟩)
  | cframeNumbers {x y z a b c d e f g h i px py pz ra rb rc rd re rf rg rh ri} : FloatOf x px → FloatOf y py → FloatOf z pz →
      FloatOf a ra → FloatOf b rb → FloatOf c rc → FloatOf d rd → FloatOf e re → FloatOf f rf → FloatOf g rg → FloatOf h rh →
      FloatOf i ri →
      Documented ref .cframe [x, y, z, a, b, c, d, e, f, g, h, i] (.cframe ⟨px, py, pz⟩ ⟨ra, rb, rc, rd, re, rf, rg, rh, ri⟩)
  | referenceText {a l s} : TextOf a s → Documented ref .reference (a :: l) (.reference (ref s))
  | reference {p l} : Documented ref .reference (.inst p :: l) (.reference p)
  | numberSequence {k k'} {ks : List NumberKeypoint} :
      Documented ref .numberSequence ((k :: k' :: ks).map .numberKeypoint) (.numberSequence (k :: k' :: ks))
  | numberGroups {l ks} : NumberGroups l ks → 2 ≤ ks.length → Documented ref .numberSequence l (.numberSequence ks)
  | colorSequence {k k'} {ks : List ColorKeypoint} :
      Documented ref .colorSequence ((k :: k' :: ks).map .colorKeypoint) (.colorSequence (k :: k' :: ks))
  | colorGroups {l ks} : ColorGroups l ks → 2 ≤ ks.length → Documented ref .colorSequence l (.colorSequence ks)
  | colorNumbers {l ks} : ColorNumbers l ks → 2 ≤ ks.length → Documented ref .colorSequence l (.colorSequence ks)
  | numberRange {a b x y} : FloatOf a x → FloatOf b y → Documented ref .numberRange [a, b] (.numberRange x y)
  | rect {x y} : Documented ref .rect [.value (.vector2 x), .value (.vector2 y)] (.rect x y)
  | rectNumbers {a b c d ax ay bx by_} : FloatOf a ax → FloatOf b ay → FloatOf c bx → FloatOf d by_ →
      Documented ref .rect [a, b, c, d] (.rect ⟨ax, ay⟩ ⟨bx, by_⟩)
  | noPhysics : Documented ref .physicalProperties [] (.physicalProperties false 0 0 0 0 0)
  | physics3 {a b c d f e} : FloatOf a d → FloatOf b f → FloatOf c e →
      Documented ref .physicalProperties [a, b, c] (.physicalProperties true d f e 0 0)
  | physics5 {a b c x y d f e fw ew} : FloatOf a d → FloatOf b f → FloatOf c e → FloatOf x fw → FloatOf y ew →
      Documented ref .physicalProperties [a, b, c, x, y] (.physicalProperties true d f e fw ew)
  | color3uint8 {a b c r g bl} : UintOf a r → UintOf b g → UintOf c bl →
      Documented ref .color3uint8 [a, b, c] (.color3uint8 r g bl)

/-- What the documentation allows and the code does not do: BinaryString, ProtectedString and Content from a string, Double
from a number, CFrame from a vector and nine numbers, Rect from two vectors (unless they are equal), NumberSequence and
ColorSequence from groups. -/
def Refused (t : Ty) (v : List (GoVal ρ)) : Prop :=
  match t, v with
  | .binaryString, .string _ :: _ => True
  | .binaryString, .bytes _ :: _ => True
  | .protectedString, .string _ :: _ => True
  | .protectedString, .bytes _ :: _ => True
  | .content, .string _ :: _ => True
  | .content, .bytes _ :: _ => True
  | .double, .int .. :: _ => True
  | .double, .f32 _ :: _ => True
  | .double, .f64 _ :: _ => True
  | .cframe, .value (.vector3 _) :: _ => True
  | .rect, [.value (.vector2 x), .value (.vector2 y)] => x ≠ y
  | .numberSequence, .int .. :: _ => True
  | .numberSequence, .f32 _ :: _ => True
  | .numberSequence, .f64 _ :: _ => True
  | .colorSequence, .int .. :: _ => True
  | .colorSequence, .f32 _ :: _ => True
  | .colorSequence, .f64 _ :: _ => True
  | _, _ => False

/-- The types whose values come out with another type: these cases of the code build a ValueString or a ValueFloat. -/
def Mistyped (t : Ty) (v : List (GoVal ρ)) : Prop :=
  match t, v with
  | .binaryString, .string _ :: _ => True
  | .binaryString, .bytes _ :: _ => True
  | .protectedString, .string _ :: _ => True
  | .protectedString, .bytes _ :: _ => True
  | .content, .string _ :: _ => True
  | .content, .bytes _ :: _ => True
  | .double, .value (.double _) :: _ => False
  | .double, _ :: _ => True
  | _, _ => False

end
end Spec

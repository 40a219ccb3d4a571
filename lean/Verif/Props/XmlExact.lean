import Verif.Spec.XmlAltered
import Verif.Rbxlx.XmlKept
import Verif.Props.XmlTree
import Verif.Props.XmlTreeExamples
/-!
# C66: what becomes of every value, supported or not
-/
namespace Props
open Go Rbxfile Rbxlx Spec

variable {ρ : Type} [DecidableEq ρ]

/-- A value that is not supported becomes another one. -/
theorem altered_final (d : Bool) (φ : ρ → Option Nat) (v : Value ρ) (hv : ¬ XmlSupported v) :
    XmlAltered d v (finalValue goFloat d false φ v) := by
  cases v with
  | brickColor n =>
    by_cases h : n.toNat < 2 ^ 31
    · simpa only [finalValue, backValue, if_pos h] using XmlAltered.brickColor h
    · simpa only [finalValue, backValue, if_neg h] using XmlAltered.brickColorMax (Nat.le_of_not_lt h)
  | ray o dir => exact .ray hv (same3 _) (same3 _)
  | token n =>
    have h : ¬ n.toNat < 2 ^ 31 := hv
    simpa only [finalValue, backValue, if_neg h] using XmlAltered.token (Nat.le_of_not_lt h)
  | font fam w st c =>
    by_cases h : w.toNat < 2 ^ 15
    · have h2 : ¬ st.toNat ≤ 1 := fun h' => hv ⟨h, h'⟩
      simpa only [finalValue, backValue, if_pos h, if_neg h2] using XmlAltered.style h (Nat.lt_of_not_le h2)
    · simpa only [finalValue, backValue, if_neg h] using XmlAltered.weight (Nat.le_of_not_lt h)
  | optional t o =>
    cases o with
    | none =>
      have : t = .optional := Classical.not_not.1 hv
      subst this
      exact .nested nofun
    | some x =>
      by_cases hx : x.type = .cframe
      · have ht : t ≠ .cframe := fun h => hv ⟨h, hx⟩
        cases x with
        | cframe p r => simpa only [finalValue, backValue, if_neg ht] using XmlAltered.mistyped ht
        | _ => cases hx
      · have fin : finalValue goFloat d false φ (.optional t (some x)) =
            some (.optional (if t = .optional then .invalid else t) none) := by
          cases x <;> first | rfl | exact absurd rfl hx
        rw [fin]
        by_cases ht : t = .optional
        · subst ht
          exact .nested fun y hy => by cases hy; exact hx
        · simpa only [if_neg ht] using XmlAltered.optional hx ht
  | _ => exact absurd trivial hv

section
variable (P : Params) (s : Layout) (h : Heap ρ) (root : Root ρ) (l : List (ρ × Inst ρ)) (discard : Bool)
  (hw : XmlEncodable P s h root l) (b : Bytes) (h1 : Heap ρ) (hb : encode P s h root = .ok (b, h1))
include hw hb

/-- C66, for every value: with the correspondence of C48, a property has after decoding the value it had, up to the
normalisations listed in `XmlKept`, exactly if that value is `XmlSupported`; otherwise it has the one that `XmlAltered`
states, or none. There are no other properties. -/
theorem C66_exact (hr : P.excludeReferent = false) :
    ∃ h' root' φ, decode P.F discard b = .ok (h', root') ∧ Corresp l φ h' ∧
    ∀ p inst, (p, inst) ∈ l → ∃ q inst', φ p = some q ∧ h'.get? q = some inst' ∧ ∀ n,
      (∀ v, inst.properties.get? n = some v → XmlSupported v →
        ∃ w, inst'.properties.get? n = some w ∧ XmlKept φ v w) ∧
      (∀ v, inst.properties.get? n = some v → ¬ XmlSupported v → XmlAltered discard v (inst'.properties.get? n)) ∧
      (inst.properties.get? n = none → inst'.properties.get? n = none) := by
  obtain ⟨h2, root2, hd, D⟩ := xml_roundtrip hw.to discard hb
  refine ⟨h2, root2, _, hd, D.corresp, ?_⟩
  intro p inst hp
  obtain ⟨q, inst', r, a1, a2, a3, a4, a5, a6, a7, a8, a9⟩ := D.insts p inst hp
  refine ⟨q, inst', a1, a2, fun n => ⟨fun v hv hs => ?_, fun v hv hs => ?_, fun hn => ?_⟩⟩
  · obtain ⟨w, w1, w2⟩ := kept_final discard (decodedAs l) v hs
    refine ⟨w, ?_, w2⟩
    rw [a9, hv, hr, hw.writable.go.floats]
    exact w1
  · rw [a9, hv, hr, hw.writable.go.floats]
    exact altered_final discard (decodedAs l) v hs
  · rw [a9, hn]; rfl

end

/-- An altered value is none of those the property asks for: it is not kept, so the values that `XmlSupported` lists
are the only ones kept, apart from a Ray whose parts differ only in which NaN they have. -/
theorem C66_altered {ρ σ : Type} {d : Bool} {φ : ρ → Option σ} {v : Value ρ} {w : Value σ} (h : XmlAltered d v (some w))
    (hk : XmlKept φ v w) : ∃ o dir, v = .ray o dir ∧ ∃ w', SameVector3 o w' ∧ SameVector3 dir w' := by
  generalize ho : some w = o at h
  cases h with
  | brickColor => cases ho; cases hk
  | brickColorMax => cases ho; cases hk
  | ray h1 h2 h3 =>
    cases ho
    obtain ⟨_, _, e, _, k⟩ := hk
    cases e
    exact ⟨_, _, rfl, _, h3, k⟩
  | token h =>
    cases ho
    simp only [XmlKept, Value.token.injEq] at hk
    subst hk
    exact absurd h (by decide)
  | weight h =>
    cases ho
    simp only [XmlKept, Value.font.injEq] at hk
    obtain ⟨_, e, _⟩ := hk
    subst e
    exact absurd h (by decide)
  | style h1 h2 =>
    cases d with
    | true => cases ho
    | false =>
      cases ho
      simp only [XmlKept, Value.font.injEq] at hk
      obtain ⟨_, _, e, _⟩ := hk
      subst e
      exact absurd h2 (by decide)
  | mistyped => cases ho
  | optional h1 h2 =>
    cases ho
    obtain ⟨_, e, _⟩ := hk
    cases e
  | @nested v h =>
    cases ho
    cases v with
    | none => cases hk
    | some x => obtain ⟨_, e, _⟩ := hk; cases e

/-- The hypotheses are met by the tree of the examples. -/
example : ∃ b h1, encode exP {} xHeap xRoot = .ok (b, h1) ∧ ∃ h' root' φ, decode goFloat false b = .ok (h', root') ∧
    Corresp xList φ h' := by
  obtain ⟨b, h1, h⟩ := xEncoded
  obtain ⟨h', root', φ, k1, k2, _⟩ := C66_exact exP {} xHeap xRoot xList false xEncodable b h1 h rfl
  exact ⟨b, h1, h, h', root', φ, k1, k2⟩

/-- A value that is altered: a BrickColor. -/
example : XmlAltered (ρ := Nat) (σ := Nat) false (.brickColor 5) (some (.int 5)) ∧
    oneBack (.brickColor 5) = .ok (some (.int 5)) := ⟨.brickColor (by decide), C44_brickcolor_fails⟩

/-- An Optional CFrame declared with another type is dropped. -/
theorem C66_mistyped_fails :
    oneBack (.optional .int (some (.cframe ⟨0, 0, 0⟩ ⟨0, 0, 0, 0, 0, 0, 0, 0, 0⟩))) = .ok none := by decide +kernel

end Props

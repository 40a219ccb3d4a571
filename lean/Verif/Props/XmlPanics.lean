import Verif.Rbxlx.FontPanic
import Verif.Props.XmlDecode
/-!
# C63: exactly which XML documents make the decoder panic

C80: exactly which property tags are dropped.
-/
namespace Props
open Go Rbxfile Rbxlx Spec

variable {ρ : Type}

/-- C63: the decoder panics if and only if the document can be read and one of its properties is a font with a weight
that cannot be represented and no family before it. -/
theorem C63_panics_iff (F : FloatText) (discard : Bool) (s : Bytes) : decode F discard s = .panic ↔
    ∃ doc rest, readFrom s = .ok (some doc, rest) ∧ ∃ t, PropertyIn doc.tags t ∧ CrashingFont t := by
  unfold decode
  have hp := C61_total s
  rcases hr : readFrom s with ⟨root, rest⟩ | e | _
  · obtain ⟨h1, h2⟩ := codecDecode_panic F discard root
    simp only [Res.ok.injEq, Prod.mk.injEq]
    rcases hc : codecDecode F discard root with x | e | _
    · rw [hc] at h2
      simp only [reduceCtorEq, false_iff] at h2 ⊢
      rintro ⟨doc, rest', ⟨h, -⟩, hb⟩
      exact h2 ⟨doc, h, hb⟩
    · exact absurd hc (h1 e)
    · rw [hc] at h2
      obtain ⟨doc, h, hb⟩ := h2.1 rfl
      simp only [true_iff]
      exact ⟨doc, rest, ⟨h, rfl⟩, hb⟩
  · simp
  · rw [hr] at hp; exact absurd hp (by simp)

/-- C63: otherwise the decoder returns a tree if the document can be read, and an error if it cannot. -/
theorem C63_otherwise (F : FloatText) (discard : Bool) (s : Bytes)
    (h : ∀ doc rest, readFrom s = .ok (some doc, rest) → ∀ t, PropertyIn doc.tags t → ¬ CrashingFont t) :
    ((decode F discard s).isOk ↔ (readFrom s).isOk) ∧ ((decode F discard s).isErr ↔ (readFrom s).isErr) := by
  have hn : decode F discard s ≠ .panic := by
    rw [ne_eq, C63_panics_iff]
    rintro ⟨doc, rest, hr, t, ht, hb⟩
    exact h doc rest hr t ht hb
  have hp := C61_total s
  unfold decode at hn ⊢
  rcases hr : readFrom s with ⟨root, rest⟩ | e | _
  · rw [hr] at hn
    simp only at hn ⊢
    rcases hc : codecDecode F discard root with x | e | _
    · simp [Res.isOk, Res.isErr]
    · exact absurd hc ((codecDecode_panic F discard root).1 e)
    · exact absurd hc hn
  · simp [Res.isOk, Res.isErr]
  · rw [hr] at hp; exact absurd hp (by simp)

/-- C80: reading the tag of a property panics if and only if it is a font with a weight that cannot be represented and
no family before it. -/
theorem C80_panics (F : FloatText) (discard : Bool) (t : Tag) : getProperty (ρ := ρ) F discard t = .panic ↔ CrashingFont t :=
  getProperty_panic_iff F discard t

/-- C80: apart from these, a tag is dropped (when invalid properties are discarded) if and only if it says nothing. -/
theorem C80_dropped (F : FloatText) (t : Tag) :
    getProperty (ρ := ρ) F true t = .ok .nothing ↔ ¬ CrashingFont t ∧ ∀ r : PropRes ρ, ¬ SaysProperty F t r := by
  rw [← C80_panics (ρ := ρ) F true]
  constructor
  · intro h
    rw [h]
    refine ⟨nofun, fun r hr => ?_⟩
    have := (C80_always F true t r hr).symm.trans h
    cases this
    exact hr
  · rintro ⟨h1, h2⟩
    exact (C80_nothing F t h2).resolve_right h1

/-! ## Cases -/

/-- A font. -/
def fontTag (subs : List Tag) : Tag := ⟨{ startName := str "Font", attr := [(str "name", str "F")] }, subs⟩

/-- A family. -/
def familyTag : Tag := ⟨{ startName := str "Family" }, [leafTag "url" "rbxasset://x"]⟩

/-- 40000 cannot be represented with 16 bits. -/
theorem overflows_40000 : Overflows 16 (str "40000") :=
  (overflows_iff (by decide) _).2 (by decide +kernel)

example : CrashingFont (fontTag [leafTag "Style" "Italic", leafTag "Weight" "40000", familyTag]) := by
  refine ⟨by decide +kernel, ⟨"font", by decide +kernel, by decide +kernel⟩,
    [leafTag "Style" "Italic"], leafTag "Weight" "40000", [familyTag], rfl, rfl, overflows_40000, by decide +kernel, by decide +kernel, ?_⟩
  intro s hs
  refine ⟨1, .inr ⟨?_, rfl⟩⟩
  have : firstTag [leafTag "Style" "Italic"] "Style" = some (leafTag "Style" "Italic") := by decide +kernel
  rw [this] at hs
  cases hs
  rfl

example : getProperty (ρ := ρ) goFloat true (fontTag [leafTag "Style" "Bold", leafTag "Weight" "40000", familyTag]) = .ok .nothing := by
  rfl

example : getProperty (ρ := ρ) goFloat true (fontTag [familyTag, leafTag "Weight" "40000"]) =
    .ok (.value (str "F") (.font (str "rbxasset://x") 32767 0 [])) := by
  rfl

/-- A document with a bad font in a second Properties tag, which is not read. -/
def twoPropsDoc : Tag := ⟨{ startName := str "roblox" }, [⟨{ startName := str "Item", attr := [(str "class", str "A")] },
  [⟨{ startName := str "Properties" }, [fontTag [familyTag]]⟩,
   ⟨{ startName := str "Properties" }, [fontTag [leafTag "Weight" "40000"]]⟩]⟩]⟩

example : (codecDecode goFloat true (some twoPropsDoc)).isOk := by decide +kernel

example : ¬ ∃ t, PropertyIn twoPropsDoc.tags t ∧ CrashingFont t := by
  intro h
  have := (codecDecode_panic goFloat true (some twoPropsDoc)).2.2 ⟨_, rfl, h⟩
  have h2 : (codecDecode goFloat true (some twoPropsDoc)).isOk := by decide +kernel
  rw [this] at h2
  cases h2

/-- C63: the document of `C63_font_fails` is one of these. -/
example : ∃ doc rest, readFrom fontDoc = .ok (some doc, rest) ∧ ∃ t, PropertyIn doc.tags t ∧ CrashingFont t :=
  (C63_panics_iff goFloat false fontDoc).1 C63_font_fails.1

end Props

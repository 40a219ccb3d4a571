import Verif.Rbxfile.Memory
import Verif.Props.Copy
/-!
# C31: copying values
-/
namespace Props
open Go Rbxfile Spec

variable {ρ : Type}

/-- C31: Copy succeeds for every value, leaves all existing arrays as they are, and the copy refers to
arrays allocated by this call only. `n` is an address above all those in use. -/
theorem C31_copy_is_fresh (m : Mem) (n : Nat) (v : MValue ρ) (x : Value ρ)
    (hv : v.read m = some x) (hn : ∀ a ∈ v.addrs, a < n) :
    ∃ v' m' n', v.copy m n = some (v', m', n') ∧
      (∀ a, a < n → m'.get? a = m.get? a) ∧ (∀ a ∈ v'.addrs, n ≤ a ∧ a < n') := by
  obtain ⟨v', m', n', e, c⟩ := MValue.copy_spec hv hn
  exact ⟨v', m', n', e, c.old, c.addrs⟩

/-- C31 (part): the copy has the same content as the original. Missing: Fonts whose CachedFaceId is
not the Family, see `C31_font_fails`. -/
theorem C31_copy_equal_partial (m m' : Mem) (n n' : Nat) (v v' : MValue ρ) (x : Value ρ)
    (hv : v.read m = some x) (hn : ∀ a ∈ v.addrs, a < n) (hx : FontClean x)
    (e : v.copy m n = some (v', m', n')) :
    v'.read m' = some x ∧ v.read m' = some x := by
  obtain ⟨w, m1, n1, e1, c⟩ := MValue.copy_spec hv hn
  rw [e] at e1
  cases e1
  refine ⟨by rw [c.content, hv, Option.map_some, copy_fontClean hx], ?_⟩
  rw [MValue.read_congr (fun a ha => c.old a (hn a ha)), hv]

/-- C31: exactly what the copy is, for every value: the original with the Family of a Font as its CachedFaceId; so it is equal to the
original just if this holds already. -/
theorem C31_copy_exact (m m' : Mem) (n n' : Nat) (v v' : MValue ρ) (x : Value ρ)
    (hv : v.read m = some x) (hn : ∀ a ∈ v.addrs, a < n) (e : v.copy m n = some (v', m', n')) :
    v'.read m' = some (faceFromFamily x) ∧ v.read m' = some x ∧ (v'.read m' = v.read m' ↔ FontClean x) := by
  obtain ⟨w, m1, n1, e1, c⟩ := MValue.copy_spec hv hn
  rw [e] at e1
  cases e1
  have h1 : v'.read m' = some (faceFromFamily x) := by rw [c.content, hv, Option.map_some, copy_face]
  have h2 : v.read m' = some x := by rw [MValue.read_congr (fun a ha => c.old a (hn a ha)), hv]
  refine ⟨h1, h2, ?_⟩
  rw [h1, h2, Option.some.injEq]
  exact ⟨face_clean x, fun h => by rw [← copy_face]; exact copy_fontClean h⟩

/-- C31: writing to the arrays of the copy later leaves every value unchanged that existed before the
copy was made, and writing to arrays that existed before leaves the copy unchanged. -/
theorem C31_independent (m m' : Mem) (n n' : Nat) (v v' w : MValue ρ) (x y : Value ρ)
    (hv : v.read m = some x) (hn : ∀ a ∈ v.addrs, a < n)
    (hw : w.read m = some y) (hwn : ∀ a ∈ w.addrs, a < n)
    (e : v.copy m n = some (v', m', n')) :
    (∀ m'' : Mem, (∀ a, a ∉ v'.addrs → m''.get? a = m'.get? a) → w.read m'' = some y) ∧
    (∀ m'' : Mem, (∀ a, ¬ a < n → m''.get? a = m'.get? a) → v'.read m'' = v'.read m') := by
  obtain ⟨v1, m1, n1, e1, c⟩ := MValue.copy_spec hv hn
  rw [e] at e1
  cases e1
  constructor
  · intro m'' hm
    rw [MValue.read_congr (m := m), hw]
    intro a ha
    have hlt := hwn a ha
    rw [hm a (fun h => by have := (c.addrs a h).1; omega), c.old a hlt]
  · intro m'' hm
    exact MValue.read_congr (fun a ha => hm a (by have := (c.addrs a ha).1; omega))

/-- C31 fails for the code: the copy of a Font is a different Font when its CachedFaceId is not its
Family. -/
theorem C31_font_fails (m : Mem) (n : Nat) (f c : Slice) (w : BitVec 16) (st : Byte) (fb cb : Bytes)
    (hf : f.readBytes m = some fb) (hc : c.readBytes m = some cb) (hne : cb ≠ fb)
    (hn : f.addr < n ∧ c.addr < n) :
    ∃ v' m' n', (MValue.font f w st c : MValue ρ).copy m n = some (v', m', n') ∧
      v'.read m' = some (.font fb w st fb) ∧
      v'.read m' ≠ (MValue.font f w st c : MValue ρ).read m := by
  have hr : (MValue.font f w st c : MValue ρ).read m = some (.font fb w st cb) := by
    simp [MValue.read, hf, hc]
  obtain ⟨v', m', n', e, cp⟩ := MValue.copy_spec (n := n) hr (by simp [MValue.addrs, hn])
  have h2 : v'.read m' = some (.font fb w st fb) := by rw [cp.content, hr]; rfl
  refine ⟨v', m', n', e, h2, ?_⟩
  rw [h2, hr]
  intro he
  simp only [Option.some.injEq, Value.font.injEq, true_and] at he
  exact hne he.symm

/-! ### Examples: two strings that share an array -/

def exMem : Mem := [(0, .bytes (str "hello")), (1, .numbers [])]

example : (MValue.bytes .string ⟨0, 1, 3⟩ : MValue Nat).read exMem = some (.string (str "ell")) ∧
    (MValue.bytes .content ⟨0, 2, 3⟩ : MValue Nat).read exMem = some (.content (str "llo")) :=
  ⟨rfl, rfl⟩

/-- Writing to the array through one changes the other: without copying they are not independent. -/
example : (MValue.bytes .content ⟨0, 2, 3⟩ : MValue Nat).read (exMem.set 0 (.bytes (str "heXlo"))) =
    some (.content (str "Xlo")) := rfl

example : ∃ v' m', (MValue.optional .string (some (.bytes .string ⟨0, 1, 3⟩)) : MValue Nat).copy exMem 2 =
      some (v', m', 3) ∧ v'.addrs = [2] ∧ v'.read m' = some (.optional .string (some (.string (str "ell")))) :=
  ⟨_, _, rfl, rfl, rfl⟩

end Props

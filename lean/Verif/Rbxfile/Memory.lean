import Verif.Rbxfile.Copy
import Verif.Spec.Copy
/-!
# Values in memory (values.go)

Strings, sequences and the strings of a Font are slices: they refer to a part of an array, which other
slices may share. The other types are plain data.
-/
namespace Rbxfile
open Go

/-- An array in memory. -/
inductive Cell where
  | bytes (b : Bytes)
  | numbers (ks : List NumberKeypoint)
  | colors (ks : List ColorKeypoint)

/-- The arrays in use, by address. -/
abbrev Mem := Map Nat Cell

/-- A slice: part of an array. A nil slice is an empty slice of an empty array. -/
structure Slice where
  addr : Nat
  off : Nat
  len : Nat
  deriving DecidableEq

/-- The part of an array a slice refers to; the slice has to lie within it. -/
def Slice.part {α : Type} (s : Slice) (l : List α) : Option (List α) :=
  if s.off + s.len ≤ l.length then some ((l.drop s.off).take s.len) else none

def Slice.readBytes (m : Mem) (s : Slice) : Option Bytes :=
  match m.get? s.addr with
  | some (.bytes b) => s.part b
  | _ => none

def Slice.readNumbers (m : Mem) (s : Slice) : Option (List NumberKeypoint) :=
  match m.get? s.addr with
  | some (.numbers ks) => s.part ks
  | _ => none

def Slice.readColors (m : Mem) (s : Slice) : Option (List ColorKeypoint) :=
  match m.get? s.addr with
  | some (.colors ks) => s.part ks
  | _ => none

/-- The Go types whose representation is a byte slice (values.go:184-260, 920-936). -/
inductive BytesKind where
  | string | binaryString | protectedString | content | sharedString
  deriving DecidableEq

def BytesKind.value {ρ : Type} : BytesKind → Bytes → Value ρ
  | .string => .string
  | .binaryString => .binaryString
  | .protectedString => .protectedString
  | .content => .content
  | .sharedString => .sharedString

/-- The types of values that are plain data. -/
def Value.isPlain {ρ : Type} : Value ρ → Bool
  | .string _ | .binaryString _ | .protectedString _ | .content _ | .sharedString _
  | .numberSequence _ | .colorSequence _ | .optional .. | .font .. => false
  | _ => true

/-- A `Value` as represented in memory. -/
inductive MValue (ρ : Type) where
  | bytes (kind : BytesKind) (s : Slice)
  | numberSequence (s : Slice)
  | colorSequence (s : Slice)
  | optional (typ : Ty) (value : Option (MValue ρ))
  | font (family : Slice) (weight : BitVec 16) (style : Byte) (cachedFaceId : Slice)
  | plain (v : Value ρ) (h : v.isPlain = true)

variable {ρ : Type}

/-- The content of a value. -/
def MValue.read (m : Mem) : MValue ρ → Option (Value ρ)
  | .bytes kind s => (s.readBytes m).map kind.value
  | .numberSequence s => (s.readNumbers m).map .numberSequence
  | .colorSequence s => (s.readColors m).map .colorSequence
  | .optional typ none => some (.optional typ none)
  | .optional typ (some v) => (v.read m).map fun v => .optional typ (some v)
  | .font f w st c => do
    let f ← f.readBytes m
    let c ← c.readBytes m
    pure (.font f w st c)
  | .plain v _ => some v

/-- The arrays a value refers to. -/
def MValue.addrs : MValue ρ → List Nat
  | .bytes _ s => [s.addr]
  | .numberSequence s => [s.addr]
  | .colorSequence s => [s.addr]
  | .optional _ none => []
  | .optional _ (some v) => v.addrs
  | .font f _ _ c => [f.addr, c.addr]
  | .plain .. => []

/-- `c := make(T, len(t)); copy(c, t)` for byte slices (values.go:196-200 etc.); `next` is the address
of the new array. -/
def copyBytes (m : Mem) (next : Nat) (s : Slice) : Option (Slice × Mem × Nat) := do
  let b ← s.readBytes m
  pure (⟨next, 0, s.len⟩, m.set next (.bytes b), next + 1)

/-- `ValueNumberSequence.Copy` (values.go:735-739). -/
def copyNumbers (m : Mem) (next : Nat) (s : Slice) : Option (Slice × Mem × Nat) := do
  let ks ← s.readNumbers m
  pure (⟨next, 0, s.len⟩, m.set next (.numbers ks), next + 1)

/-- `ValueColorSequence.Copy` (values.go:780-784). -/
def copyColors (m : Mem) (next : Nat) (s : Slice) : Option (Slice × Mem × Nat) := do
  let ks ← s.readColors m
  pure (⟨next, 0, s.len⟩, m.set next (.colors ks), next + 1)

/-- `Value.Copy` (the `Copy` methods of values.go): the copy, the memory, the next address. Fails only
for slices that do not lie in memory. `ValueFont.Copy` copies `Family` twice
(values.go:1181-1188). -/
def MValue.copy : MValue ρ → Mem → Nat → Option (MValue ρ × Mem × Nat)
  | .bytes kind s, m, n => do
    let (s, m, n) ← copyBytes m n s
    pure (.bytes kind s, m, n)
  | .numberSequence s, m, n => do
    let (s, m, n) ← copyNumbers m n s
    pure (.numberSequence s, m, n)
  | .colorSequence s, m, n => do
    let (s, m, n) ← copyColors m n s
    pure (.colorSequence s, m, n)
  | .optional typ none, m, n => some (.optional typ none, m, n)
  | .optional typ (some v), m, n => do
    let (v, m, n) ← v.copy m n
    pure (.optional typ (some v), m, n)
  | .font f w st _, m, n => do
    let (f', m, n) ← copyBytes m n f
    let (c', m, n) ← copyBytes m n f
    pure (.font f' w st c', m, n)
  | .plain v h, m, n => some (.plain v h, m, n)

/-! ## Lemmas -/

theorem Slice.part_some {α : Type} {s : Slice} {l b : List α} (h : s.part l = some b) :
    b.length = s.len ∧ ∀ a, (⟨a, 0, s.len⟩ : Slice).part b = some b := by
  simp only [Slice.part] at h
  split at h
  · rename_i hl
    cases h
    have : ((l.drop s.off).take s.len).length = s.len := by
      rw [List.length_take, List.length_drop]; omega
    refine ⟨this, fun a => ?_⟩
    simp only [Slice.part, Nat.zero_add, this, Nat.le_refl, if_true, List.drop_zero]
    rw [List.take_of_length_le (by omega)]
  · cases h

structure CopiedTo (m : Mem) (n : Nat) (v : MValue ρ) (v' : MValue ρ) (m' : Mem) (n' : Nat) : Prop where
  next : n ≤ n'
  old : ∀ a, a < n → m'.get? a = m.get? a
  addrs : ∀ a ∈ v'.addrs, n ≤ a ∧ a < n'
  content : v'.read m' = (v.read m).map Value.copy

theorem copyBytes_some {m : Mem} {n : Nat} {s : Slice} {b : Bytes} (h : s.readBytes m = some b) :
    copyBytes m n s = some (⟨n, 0, s.len⟩, m.set n (.bytes b), n + 1) ∧
    Slice.readBytes (m.set n (.bytes b)) ⟨n, 0, s.len⟩ = some b := by
  refine ⟨by simp [copyBytes, h], ?_⟩
  simp only [Slice.readBytes, Map.get?_set_self]
  simp only [Slice.readBytes] at h
  split at h
  · exact (Slice.part_some h).2 n
  · cases h

theorem readBytes_congr {m m' : Mem} {s : Slice} (h : m'.get? s.addr = m.get? s.addr) :
    s.readBytes m' = s.readBytes m := by simp [Slice.readBytes, h]

/-- Reading a value depends on the arrays it refers to only. -/
theorem MValue.read_congr {m m' : Mem} : ∀ {v : MValue ρ},
    (∀ a ∈ v.addrs, m'.get? a = m.get? a) → v.read m' = v.read m
  | .bytes kind s, h => by
    simp only [MValue.read, readBytes_congr (h s.addr (by simp [MValue.addrs]))]
  | .numberSequence s, h => by
    simp only [MValue.read, Slice.readNumbers, h s.addr (by simp [MValue.addrs])]
  | .colorSequence s, h => by
    simp only [MValue.read, Slice.readColors, h s.addr (by simp [MValue.addrs])]
  | .optional typ none, _ => rfl
  | .optional typ (some v), h => by
    simp only [MValue.read, MValue.read_congr (v := v) (fun a ha => h a ha)]
  | .font f w st c, h => by
    simp only [MValue.read, readBytes_congr (h f.addr (by simp [MValue.addrs])),
      readBytes_congr (h c.addr (by simp [MValue.addrs]))]
  | .plain .., _ => rfl

theorem Value.copy_plain {v : Value ρ} (h : v.isPlain = true) : v.copy = v := by
  cases v <;> first | rfl | simp [Value.isPlain] at h

theorem MValue.copy_spec : ∀ {v : MValue ρ} {m : Mem} {n : Nat} {x : Value ρ},
    v.read m = some x → (∀ a ∈ v.addrs, a < n) →
    ∃ v' m' n', v.copy m n = some (v', m', n') ∧ CopiedTo m n v v' m' n'
  | .bytes kind s, m, n, x, h, _ => by
    simp only [MValue.read, Option.map_eq_some_iff] at h
    obtain ⟨b, hb, rfl⟩ := h
    obtain ⟨h1, h2⟩ := copyBytes_some (n := n) hb
    refine ⟨.bytes kind ⟨n, 0, s.len⟩, _, n + 1, by simp only [MValue.copy, h1]; rfl, by omega, ?_, ?_, ?_⟩
    · intro a ha; exact Map.get?_set_ne _ _ (by omega)
    · simp [MValue.addrs]
    · simp only [MValue.read, h2, hb]
      cases kind <;> rfl
  | .numberSequence s, m, n, x, h, _ => by
    simp only [MValue.read, Option.map_eq_some_iff] at h
    obtain ⟨b, hb, rfl⟩ := h
    refine ⟨.numberSequence ⟨n, 0, s.len⟩, _, n + 1, by simp only [MValue.copy, copyNumbers, hb]; rfl, by omega, ?_, ?_, ?_⟩
    · intro a ha; exact Map.get?_set_ne _ _ (by omega)
    · simp [MValue.addrs]
    · simp only [MValue.read, hb]
      simp only [Slice.readNumbers, Map.get?_set_self]
      simp only [Slice.readNumbers] at hb
      split at hb
      · rw [(Slice.part_some hb).2]; rfl
      · cases hb
  | .colorSequence s, m, n, x, h, _ => by
    simp only [MValue.read, Option.map_eq_some_iff] at h
    obtain ⟨b, hb, rfl⟩ := h
    refine ⟨.colorSequence ⟨n, 0, s.len⟩, _, n + 1, by simp only [MValue.copy, copyColors, hb]; rfl, by omega, ?_, ?_, ?_⟩
    · intro a ha; exact Map.get?_set_ne _ _ (by omega)
    · simp [MValue.addrs]
    · simp only [MValue.read, hb]
      simp only [Slice.readColors, Map.get?_set_self]
      simp only [Slice.readColors] at hb
      split at hb
      · rw [(Slice.part_some hb).2]; rfl
      · cases hb
  | .optional typ none, m, n, x, h, _ =>
    ⟨_, _, _, rfl, Nat.le_refl _, fun _ _ => rfl, by simp [MValue.addrs], rfl⟩
  | .optional typ (some v), m, n, x, h, hn => by
    simp only [MValue.read, Option.map_eq_some_iff] at h
    obtain ⟨y, hy, rfl⟩ := h
    obtain ⟨v', m', n', e, c⟩ := MValue.copy_spec hy hn
    refine ⟨.optional typ (some v'), m', n', by simp only [MValue.copy, e]; rfl, c.next, c.old, c.addrs, ?_⟩
    simp only [MValue.read, c.content, hy]
    rfl
  | .font f w st c, m, n, x, h, hn => by
    simp only [MValue.addrs, List.mem_cons, List.not_mem_nil, or_false, forall_eq_or_imp,
      forall_eq] at hn
    simp only [MValue.read] at h
    cases hf : f.readBytes m with
    | none => simp [hf] at h
    | some fb =>
    cases hc : c.readBytes m with
    | none => simp [hf, hc] at h
    | some cb =>
    obtain ⟨h1, h2⟩ := copyBytes_some (n := n) hf
    have hf2 : f.readBytes (m.set n (.bytes fb)) = some fb := by
      rw [readBytes_congr, hf]
      exact Map.get?_set_ne _ _ (by omega)
    obtain ⟨h3, h4⟩ := copyBytes_some (n := n + 1) hf2
    refine ⟨.font ⟨n, 0, f.len⟩ w st ⟨n + 1, 0, f.len⟩, _, n + 2, by
      simp only [MValue.copy, h1, h3, Option.bind_eq_bind, Option.bind_some]; rfl, by omega, ?_, ?_, ?_⟩
    · intro a ha
      rw [Map.get?_set_ne _ _ (by omega), Map.get?_set_ne _ _ (by omega)]
    · simp [MValue.addrs]
    · have h5 : Slice.readBytes ((m.set n (.bytes fb)).set (n + 1) (.bytes fb)) ⟨n, 0, f.len⟩ = some fb := by
        rw [readBytes_congr, h2]
        exact Map.get?_set_ne _ _ (by simp)
      simp only [MValue.read, h4, h5, hf, hc, Option.bind_eq_bind, Option.bind_some, Option.map_some,
        Option.pure_def]
      rfl
  | .plain v hv, m, n, x, h, _ =>
    ⟨_, _, _, rfl, Nat.le_refl _, fun _ _ => rfl, by simp [MValue.addrs], by
      simp [MValue.read, Value.copy_plain hv]⟩

end Rbxfile

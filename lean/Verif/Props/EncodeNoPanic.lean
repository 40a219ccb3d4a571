import Verif.Rbxl.EncPanics
import Verif.Props.EncodeExamples
/-!
# C19: encoding does not panic
-/
namespace Props
open Go Rbxfile Rbxl Spec

variable {ρ : Type} [DecidableEq ρ]

/-- C19: a tree with fewer than 2^31 instances whose optional values have, for each property of a
class, one valid element type is encoded without a panic; the only errors are those of compression.
Missing for the full property: other optional values, see `C19_invalid_optional_fails` and
`C19_mixed_optionals_fails`. -/
theorem C19_no_panic_partial (lz : LZ4) (hlz : lz.Lossless) (u : Bool) (it : Iter) (srt : Sorter)
    (hash : Bytes → Bytes) (place : Bool) (h : Heap ρ) (root : Root ρ) (l : Map ρ (Inst ρ))
    (ht : Trees h root.instances l) (hn : l.length < 2 ^ 31)
    (ho : ∀ cls n, OptionalsOk (valuesOf (classmates l cls) n)) :
    encodeRoot lz u it srt hash place h root ≠ .panic := by
  obtain ⟨f, hf, hp⟩ := codecEncode_ok it srt hash place h root l ht hn ho
  simp only [encodeRoot, hf, Res.ok_bind, encodeFile]
  have := writeChunks_noPanic hlz.enc_ne_panic u f.chunks (by
    intro c hc h
    obtain ⟨b, hb⟩ := hp c hc
    rw [hb] at h; cases h)
  rcases hw : writeChunks lz u f.chunks with x | e | _
  · simp
  · simp
  · exact absurd hw this

theorem writeChunks_uncompressed (lz : LZ4) : ∀ cs : List Chunk, (∀ c ∈ cs, ∃ b, c.body.payload = .ok b) →
    ∃ x, writeChunks lz true cs = .ok x := by
  intro cs
  induction cs with
  | nil => intro _; exact ⟨_, rfl⟩
  | cons c cs ih =>
    intro h
    obtain ⟨b, hb⟩ := h c (by simp)
    obtain ⟨x, hx⟩ := ih fun c hc => h c (by simp [hc])
    exact ⟨_, by simp only [writeChunks, writeChunk, hb, hx, Res.ok_bind, rawWrite, if_true,
      Bool.false_eq_true, if_false, Res.pure_eq]; rfl⟩

/-- C19: without compression such a tree is always encoded. -/
theorem C19_uncompressed_succeeds_partial (lz : LZ4) (it : Iter) (srt : Sorter)
    (hash : Bytes → Bytes) (place : Bool) (h : Heap ρ) (root : Root ρ) (l : Map ρ (Inst ρ))
    (ht : Trees h root.instances l) (hn : l.length < 2 ^ 31)
    (ho : ∀ cls n, OptionalsOk (valuesOf (classmates l cls) n)) :
    ∃ b, encodeRoot lz true it srt hash place h root = .ok b := by
  obtain ⟨f, hf, hp⟩ := codecEncode_ok it srt hash place h root l ht hn ho
  obtain ⟨x, hx⟩ := writeChunks_uncompressed lz f.chunks hp
  exact ⟨_, by simp only [encodeRoot, hf, Res.ok_bind, encodeFile, hx, Res.pure_eq]; rfl⟩

theorem exOptionals (cls n : Bytes) : OptionalsOk (valuesOf (classmates exList cls) n) := by
  have key : ∀ v ∈ valuesOf (classmates exList cls) n, ∀ t o, v = .optional t o →
      t = .bool ∧ o = some (.bool true) := by
    have : ∀ x ∈ exList, ∀ y ∈ x.2.properties, ∀ t o, y.2 = .optional t o →
        t = .bool ∧ o = some (.bool true) := by
      simp [exList, exHeap, List.forall_mem_cons, -List.mem_cons, -Prod.forall]
    intro v hv
    obtain ⟨i, hi, hv⟩ := List.mem_filterMap.1 hv
    obtain ⟨x, hx, rfl⟩ := List.mem_map.1 (List.mem_filter.1 hi).1
    exact this x hx _ (Map.mem_of_get? hv)
  intro t o hm
  obtain ⟨rfl, rfl⟩ := key _ hm t o rfl
  refine ⟨by decide, by decide, ?_, ?_⟩
  · intro v hv; cases hv; rfl
  · intro t' o' hm'
    rw [(key _ hm' t' o' rfl).1]

example : encodeRoot LZ4.stored false Iter.id Sorter.insertion exHash true exHeap exRoot ≠ .panic :=
  C19_no_panic_partial _ LZ4.stored_lossless _ _ _ _ _ _ _ exList exTrees (by decide) exOptionals

/-- The full C19 fails: an optional value without an element type, such as the one returned by
`NewValue(TypeOptional)`, makes the encoder panic. -/
theorem C19_invalid_optional_fails (lz : LZ4) (u : Bool) : ∃ (h : Heap Nat) (root : Root Nat),
    (∃ l, Trees h root.instances l) ∧
    encodeRoot lz u Iter.id Sorter.insertion exHash true h root = .panic :=
  ⟨[(0, { className := [80#8], properties := [([79#8], .optional .invalid none)] })],
    { instances := [0] }, ⟨_, .cons rfl .nil .nil, by unfold Map.Ok; decide⟩, rfl⟩

/-- The full C19 fails: two instances of a class with optional values of different element types
make the encoder panic. -/
theorem C19_mixed_optionals_fails (lz : LZ4) (u : Bool) : ∃ (h : Heap Nat) (root : Root Nat),
    (∃ l, Trees h root.instances l) ∧
    encodeRoot lz u Iter.id Sorter.insertion exHash true h root = .panic :=
  ⟨[(0, { className := [80#8], properties := [([79#8], .optional .bool none)] }),
    (1, { className := [80#8], properties := [([79#8], .optional .string none)] })],
    { instances := [0, 1] },
    ⟨_, .cons rfl .nil (.cons rfl .nil .nil), by unfold Map.Ok; decide⟩, rfl⟩

/-! ### Exactly when encoding panics -/

/-- The codec of the encoder panics exactly if some property of some class has bad Optionals; otherwise it makes chunks that can
all be written. -/
theorem codecEncode_exact (it : Iter) (srt : Sorter) (hash : Bytes → Bytes) (place : Bool) (h : Heap ρ) (root : Root ρ)
    (l : Map ρ (Inst ρ)) (ht : Trees h root.instances l) (hn : l.length < 2 ^ 31)
    (hw : ∀ x ∈ l, ∀ n t v, x.2.properties.get? n = some (.optional t (some v)) → v.type = t) :
    ((∃ cls n, BadOptionals (valuesOf (classmates l cls) n)) → codecEncode it srt hash place h root = .panic) ∧
    ((∀ cls n, ¬ BadOptionals (valuesOf (classmates l cls) n)) →
      ∃ f, codecEncode it srt hash place h root = .ok f ∧ ∀ c ∈ f.chunks, ∃ b, c.body.payload = .ok b) := by
  obtain ⟨names, hnn, hns, hnm, hcl⟩ := classList_eq it srt place (l.map Prod.snd)
  have hne : ∀ cls ∈ names, classInsts (l.map Prod.snd) cls ≠ [] := by
    intro cls hc h0
    obtain ⟨i, hi, rfl⟩ := (hnm cls).1 hc
    obtain ⟨q, hq⟩ := List.mem_iff_getElem?.1 hi
    have : (i, q) ∈ members (l.map Prod.snd).zipIdx i.className := mem_members.2 ⟨hq, rfl⟩
    have : i ∈ classInsts (l.map Prod.snd) i.className := List.mem_map.2 ⟨_, this, rfl⟩
    rw [h0] at this; cases this
  obtain ⟨h1, h2⟩ := propChunks_exact it srt hash place l hn (by
    intro cls n t v hv
    rw [classInsts_eq] at hv
    obtain ⟨i, hi, hv⟩ := List.mem_filterMap.1 hv
    obtain ⟨x, hx, rfl⟩ := List.mem_map.1 (List.mem_filter.1 hi).1
    exact hw x hx n t v hv) names 0 [] hne
  rw [← hcl] at h1 h2
  constructor
  · rintro ⟨cls, n, hb⟩
    have : propChunks it srt hash place l 0 (classList it srt place (l.map Prod.snd)) [] = .panic := by
      refine h2 ⟨cls, ?_, n, by rw [classInsts_eq]; exact hb⟩
      obtain ⟨t, o, rest, hv, -⟩ := hb
      have hm : Value.optional t o ∈ valuesOf (classmates l cls) n := by rw [hv]; simp
      obtain ⟨i, hi, -⟩ := List.mem_filterMap.1 hm
      obtain ⟨g1, g2⟩ := List.mem_filter.1 hi
      exact (hnm cls).2 ⟨i, g1, by simpa using g2⟩
    simp only [codecEncode, instList_trees ht, Res.ok_bind, this]
    rfl
  · intro hb
    exact codecEncode_of_props it srt hash place h root l ht hn
      (h1 fun cls _ n => by rw [classInsts_eq]; exact hb cls n)

/-- C19: exactly when encoding a tree panics, for trees with fewer than 2^31 instances: if the values that the instances of some
class have for some property are `BadOptionals`. The type of an Optional is that of its value, which is what the constructor `Some`
ensures (`hw`). -/
theorem C19_panics_iff (lz : LZ4) (hlz : lz.Lossless) (u : Bool) (it : Iter) (srt : Sorter) (hash : Bytes → Bytes) (place : Bool)
    (h : Heap ρ) (root : Root ρ) (l : Map ρ (Inst ρ)) (ht : Trees h root.instances l) (hn : l.length < 2 ^ 31)
    (hw : ∀ x ∈ l, ∀ n t v, x.2.properties.get? n = some (.optional t (some v)) → v.type = t) :
    encodeRoot lz u it srt hash place h root = .panic ↔ ∃ cls n, BadOptionals (valuesOf (classmates l cls) n) := by
  obtain ⟨h1, h2⟩ := codecEncode_exact it srt hash place h root l ht hn hw
  by_cases hb : ∃ cls n, BadOptionals (valuesOf (classmates l cls) n)
  · refine ⟨fun _ => hb, fun _ => ?_⟩
    simp only [encodeRoot, h1 hb]
    rfl
  · refine ⟨fun hp => ?_, fun h => absurd h hb⟩
    exfalso
    obtain ⟨f, hf, hp'⟩ := h2 fun cls n h => hb ⟨cls, n, h⟩
    simp only [encodeRoot, hf, Res.ok_bind, encodeFile] at hp
    have := writeChunks_noPanic hlz.enc_ne_panic u f.chunks (by
      intro c hc h
      obtain ⟨b, hb⟩ := hp' c hc
      rw [hb] at h; cases h)
    rcases hwc : writeChunks lz u f.chunks with x | e | _
    · rw [hwc] at hp; simp at hp
    · rw [hwc] at hp; simp at hp
    · exact this hwc

/-- C19: without compression, encoding such a tree succeeds exactly if there are no `BadOptionals`. -/
theorem C19_uncompressed_iff (lz : LZ4) (it : Iter) (srt : Sorter) (hash : Bytes → Bytes) (place : Bool)
    (h : Heap ρ) (root : Root ρ) (l : Map ρ (Inst ρ)) (ht : Trees h root.instances l) (hn : l.length < 2 ^ 31)
    (hw : ∀ x ∈ l, ∀ n t v, x.2.properties.get? n = some (.optional t (some v)) → v.type = t) :
    (∃ b, encodeRoot lz true it srt hash place h root = .ok b) ↔ ¬ ∃ cls n, BadOptionals (valuesOf (classmates l cls) n) := by
  obtain ⟨h1, h2⟩ := codecEncode_exact it srt hash place h root l ht hn hw
  constructor
  · rintro ⟨b, hb⟩ hbad
    simp only [encodeRoot, h1 hbad] at hb
    cases hb
  · intro hbad
    obtain ⟨f, hf, hp⟩ := h2 fun cls n h => hbad ⟨cls, n, h⟩
    obtain ⟨x, hx⟩ := writeChunks_uncompressed lz f.chunks hp
    exact ⟨_, by simp only [encodeRoot, hf, Res.ok_bind, encodeFile, hx, Res.pure_eq]; rfl⟩

/-- The Optionals of the two counterexamples are bad; the tree with a nested Optional is another one. -/
example : BadOptionals (ρ := Nat) [.optional .invalid none] ∧
    BadOptionals (ρ := Nat) [.optional .bool none, .optional .string none] ∧
    BadOptionals (ρ := Nat) [.optional .optional (some (.optional .bool none))] :=
  ⟨⟨_, _, _, rfl, .inl rfl⟩, ⟨_, _, _, rfl, .inr (.inl ⟨[], _, _, _, rfl, by decide, by simp⟩)⟩,
    ⟨_, _, _, rfl, .inr (.inr ⟨rfl, by simp⟩)⟩⟩

/-- Optionals of different types are harmless if a value of another type comes in between: then the property is dropped. -/
example : ¬ BadOptionals (ρ := Nat) [.optional .bool none, .bool true, .optional .string none] := by
  rintro ⟨t, o, rest, h, h'⟩
  cases h
  rcases h' with h' | ⟨pre, t', o', post, h1, h2, h3⟩ | ⟨h', -⟩
  · cases h'
  · cases pre with
    | nil => cases h1
    | cons v pre =>
      rw [← (List.cons.inj h1).1] at h3
      obtain ⟨t, o, h, -⟩ := h3 (.bool true) (by simp)
      cases h
  · cases h'

/-- The example has no bad Optionals, and its Optionals have the types of their values. -/
example : (∀ x ∈ exList, ∀ n t v, x.2.properties.get? n = some (.optional t (some v)) → v.type = t) ∧
    ¬ ∃ cls n, BadOptionals (valuesOf (classmates exList cls) n) := by
  have hw : ∀ x ∈ exList, ∀ n t v, x.2.properties.get? n = some (.optional t (some v)) → v.type = t := by
    intro x hx n t v hv
    have : ∀ x ∈ exList, ∀ y ∈ x.2.properties, ∀ t o, y.2 = .optional t o →
        t = .bool ∧ o = some (.bool true) := by
      simp [exList, exHeap, List.forall_mem_cons, -List.mem_cons, -Prod.forall]
    obtain ⟨rfl, h⟩ := this x hx _ (Map.mem_of_get? hv) _ _ rfl
    cases h
    rfl
  refine ⟨hw, (C19_uncompressed_iff LZ4.stored Iter.id Sorter.insertion exHash true exHeap exRoot exList exTrees (by decide) hw).1 ?_⟩
  exact C19_uncompressed_succeeds_partial LZ4.stored Iter.id Sorter.insertion exHash true exHeap exRoot exList exTrees (by decide)
    exOptionals

end Props

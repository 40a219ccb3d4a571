import Verif.Rbxl.EncMain
/-!
# C11, C12, C13, C14, C15, C16, C18: encoding a tree and decoding it

`Trees h root.instances l` says that the instances of the root are tree-shaped; `l` lists them.
`SmallChunks` is the limit of the format: no chunk is 4 GiB or longer.
-/
namespace Props
open Go Rbxfile Rbxl Spec

variable {ρ : Type} [DecidableEq ρ]

/-- The hypotheses about the tree: tree-shaped, Optional values only of types the format can store
(C06), no chunk too large, and no collision of the hash of shared strings. -/
structure Encodable (it : Iter) (srt : Sorter) (hash : Bytes → Bytes) (place : Bool) (h : Heap ρ)
    (root : Root ρ) (l : Map ρ (Inst ρ)) : Prop where
  trees : Trees h root.instances l
  metadata : root.metadata.Ok
  supported : ∀ x ∈ l, ∀ n v, x.2.properties.get? n = some v → Supported v
  collisions : ∀ s s', UsedShared l s → UsedShared l s' → hash s = hash s' → s = s'
  small : SmallChunks it srt hash place h root

section
variable (lz : LZ4) (hlz : lz.Lossless) (slack : Bytes → Nat) (quat : Quat) (noXML u : Bool)
  (it : Iter) (srt : Sorter) (hash : Bytes → Bytes) (place : Bool) (h : Heap ρ) (root : Root ρ)
  (l : Map ρ (Inst ρ)) (he : Encodable it srt hash place h root l) (b : Bytes)
  (hb : encodeRoot lz u it srt hash place h root = .ok b)
include hlz he hb

/-- C11: decoding an encoded tree succeeds without warnings, and there is a one-to-one
correspondence `φ` of the instances that preserves the roots, the children, their order, and the
class names. -/
theorem C11_same_tree : ∃ stats h' root' φ,
    decodeRoot lz slack quat noXML b = ⟨[], [], stats, .ok (.tree h' root')⟩ ∧
    Corresp l φ h' ∧ root'.instances.map some = root.instances.map φ ∧
    ∀ p inst, (p, inst) ∈ l → ∃ q inst', φ p = some q ∧ h'.get? q = some inst' ∧
      inst'.className = inst.className ∧ inst'.children.map some = inst.children.map φ := by
  obtain ⟨stats, h', root', d, h1, h2, hd, h3, _, h5⟩ := roundtrip lz hlz slack quat noXML u it srt hash
    place h root l he.trees he.metadata he.supported he.collisions he.small b hb
  refine ⟨stats, h', root', decodedId l, h1, h2, h3, ?_⟩
  intro p inst hp
  obtain ⟨q, inst', g1, g2, g3, _, _, g6, _⟩ := h5 p inst hp
  exact ⟨q, inst', g1, g2, g3, g6⟩

/-- C12: with the correspondence of C11, an instance that has a property about whose type the
instances of its class agree has it after decoding, with the same value up to the normalisations
listed in `Kept`; properties that are not written (`Written`) are not there. Missing for the full
property: Optional values of interleaved types (`Encodable.supported`), see
`C12_optional_int_fails`. -/
theorem C12_values_partial : ∃ stats h' root' φ,
    decodeRoot lz slack quat noXML b = ⟨[], [], stats, .ok (.tree h' root')⟩ ∧ Corresp l φ h' ∧
    ∀ p inst, (p, inst) ∈ l → ∃ q inst', φ p = some q ∧ h'.get? q = some inst' ∧
      ∀ n,
        (∀ v, inst.properties.get? n = some v →
          Written place (valuesOf (classmates l inst.className) n) →
          ∃ w, inst'.properties.get? n = some w ∧ Kept φ v w) ∧
        (¬ Written place (valuesOf (classmates l inst.className) n) →
          inst'.properties.get? n = none) := by
  obtain ⟨stats, h', root', d, h1, h2, hd, h3, _, h5⟩ := roundtrip lz hlz slack quat noXML u it srt hash
    place h root l he.trees he.metadata he.supported he.collisions he.small b hb
  refine ⟨stats, h', root', decodedId l, h1, h2, ?_⟩
  intro p inst hp
  obtain ⟨q, inst', g1, g2, _, _, _, _, g7⟩ := h5 p inst hp
  refine ⟨q, inst', g1, g2, fun n => ⟨?_, (g7 n).2⟩⟩
  intro v hv hw
  obtain ⟨w, w1, w2⟩ := (g7 n).1 hw
  exact ⟨w, w1, w2.1 v hv⟩

/-- C13: a reference property leads to the instance corresponding to the one it led to; nil stays
nil, and a reference out of the tree becomes nil. -/
theorem C13_references : ∃ stats h' root' φ,
    decodeRoot lz slack quat noXML b = ⟨[], [], stats, .ok (.tree h' root')⟩ ∧ Corresp l φ h' ∧
    ∀ p inst, (p, inst) ∈ l → ∃ q inst', φ p = some q ∧ h'.get? q = some inst' ∧
      ∀ n target, inst.properties.get? n = some (.reference target) →
        (∀ v ∈ valuesOf (classmates l inst.className) n, v.type = .reference) →
        ∃ target', inst'.properties.get? n = some (.reference target') ∧
          (target = none → target' = none) ∧
          ∀ t, target = some t → (t ∈ l.map Prod.fst → target'.isSome ∧ target' = φ t) ∧
            (t ∉ l.map Prod.fst → target' = none) := by
  obtain ⟨stats, h', root', d, h1, h2, hd, h3, _, h5⟩ := roundtrip lz hlz slack quat noXML u it srt hash
    place h root l he.trees he.metadata he.supported he.collisions he.small b hb
  refine ⟨stats, h', root', decodedId l, h1, h2, ?_⟩
  intro p inst hp
  obtain ⟨q, inst', g1, g2, _, _, _, _, g7⟩ := h5 p inst hp
  refine ⟨q, inst', g1, g2, ?_⟩
  intro n target hv hty
  have hmem : Value.reference target ∈ valuesOf (classmates l inst.className) n :=
    List.mem_filterMap.2 ⟨inst, List.mem_filter.2 ⟨List.mem_map.2 ⟨_, hp, rfl⟩, by simp⟩, hv⟩
  have hw : Written place (valuesOf (classmates l inst.className) n) := by
    refine ⟨(fun h0 => by rw [h0] at hmem; cases hmem), .reference, ?_, by simp⟩
    intro v hv; rw [hty v hv]; rfl
  obtain ⟨w, w1, w2⟩ := (g7 n).1 hw
  have := w2.1 _ hv
  simp only [Kept] at this
  subst this
  refine ⟨_, w1, by rintro rfl; rfl, ?_⟩
  rintro t rfl
  rw [Option.bind_some]
  refine ⟨fun ht => ⟨(h2.defined t).2 ht, rfl⟩, fun ht => ?_⟩
  have := mt (h2.defined t).1 ht
  simpa using this

/-- C14: a shared string property has the same content after decoding. -/
theorem C14_preserved : ∃ stats h' root' φ,
    decodeRoot lz slack quat noXML b = ⟨[], [], stats, .ok (.tree h' root')⟩ ∧ Corresp l φ h' ∧
    ∀ p inst, (p, inst) ∈ l → ∃ q inst', φ p = some q ∧ h'.get? q = some inst' ∧
      ∀ n s, inst.properties.get? n = some (.sharedString s) →
        (∀ v ∈ valuesOf (classmates l inst.className) n, v.type = .sharedString) →
        inst'.properties.get? n = some (.sharedString s) := by
  obtain ⟨stats, h', root', d, h1, h2, hd, h3, _, h5⟩ := roundtrip lz hlz slack quat noXML u it srt hash
    place h root l he.trees he.metadata he.supported he.collisions he.small b hb
  refine ⟨stats, h', root', decodedId l, h1, h2, ?_⟩
  intro p inst hp
  obtain ⟨q, inst', g1, g2, _, _, _, _, g7⟩ := h5 p inst hp
  refine ⟨q, inst', g1, g2, ?_⟩
  intro n s hv hty
  have hmem : Value.sharedString s ∈ valuesOf (classmates l inst.className) n :=
    List.mem_filterMap.2 ⟨inst, List.mem_filter.2 ⟨List.mem_map.2 ⟨_, hp, rfl⟩, by simp⟩, hv⟩
  have hw : Written place (valuesOf (classmates l inst.className) n) := by
    refine ⟨(fun h0 => by rw [h0] at hmem; cases hmem), .sharedString, ?_, by simp⟩
    intro v hv; rw [hty v hv]; rfl
  obtain ⟨w, w1, w2⟩ := (g7 n).1 hw
  have := w2.1 _ hv
  simp only [Kept] at this
  rw [w1, this]

/-- C15: an instance without a property that another instance of its class has is decoded with the
zero value of its type (an absent Optional for Optional values). If the instances of a class
disagree about the type of a property, none of them has it after decoding (and C11 to C14 hold for
the rest). Missing: for references and shared strings the code does not store the zero value, see
`C15_missing_exact` and `C15_missing_reference_fails`. -/
theorem C15_defaults_partial : ∃ stats h' root' φ,
    decodeRoot lz slack quat noXML b = ⟨[], [], stats, .ok (.tree h' root')⟩ ∧ Corresp l φ h' ∧
    ∀ p inst, (p, inst) ∈ l → ∃ q inst', φ p = some q ∧ h'.get? q = some inst' ∧
      ∀ n v v', v ∈ valuesOf (classmates l inst.className) n →
        v' ∈ valuesOf (classmates l inst.className) n →
        (binType v.type ≠ binType v'.type → inst'.properties.get? n = none) ∧
        ((∀ w ∈ valuesOf (classmates l inst.className) n, binType w.type = binType v.type) →
          inst.properties.get? n = none → v.type ≠ .reference → v.type ≠ .sharedString →
          (v.type = .uniqueId → place = true) →
          match v with
          | .optional t _ => inst'.properties.get? n = some (.optional (binType t) none)
          | v => inst'.properties.get? n = some (zeroValue (binType v.type))) := by
  obtain ⟨stats, h', root', d, h1, h2, hd, h3, _, h5⟩ := roundtrip lz hlz slack quat noXML u it srt hash
    place h root l he.trees he.metadata he.supported he.collisions he.small b hb
  refine ⟨stats, h', root', decodedId l, h1, h2, ?_⟩
  intro p inst hp
  obtain ⟨q, inst', g1, g2, _, _, _, _, g7⟩ := h5 p inst hp
  refine ⟨q, inst', g1, g2, ?_⟩
  intro n v v' hv hv'
  refine ⟨?_, ?_⟩
  · intro hne
    apply (g7 n).2
    rintro ⟨_, t, ht, _⟩
    exact hne ((ht v hv).trans (ht v' hv').symm)
  · intro hall hnone h1 h2 hu
    have hw : Written place (valuesOf (classmates l inst.className) n) := by
      refine ⟨(fun h0 => by rw [h0] at hv; cases hv), binType v.type, hall, ?_⟩
      intro e
      apply hu
      cases ht : v.type <;> rw [ht] at e <;> simp [binType] at e ⊢
    obtain ⟨w, w1, w2⟩ := (g7 n).1 hw
    have := w2.2 hnone v hv
    cases v <;> first
      | (simp only at this ⊢; rw [w1, this]; done)
      | exact absurd rfl h1
      | exact absurd rfl h2

/-- C15, what the code does for references and shared strings: an instance without a reference that another instance of its class
has is decoded with a reference to the first instance of the tree; one without a shared string with one and the same shared
string of the tree. -/
theorem C15_missing_exact : ∃ stats h' root' φ, ∃ s₀ : Bytes,
    decodeRoot lz slack quat noXML b = ⟨[], [], stats, .ok (.tree h' root')⟩ ∧ Corresp l φ h' ∧
    ∀ p inst, (p, inst) ∈ l → ∃ q inst', φ p = some q ∧ h'.get? q = some inst' ∧
      ∀ n, inst.properties.get? n = none →
        (∀ r, .reference r ∈ valuesOf (classmates l inst.className) n →
          (∀ w ∈ valuesOf (classmates l inst.className) n, w.type = .reference) →
          inst'.properties.get? n = some (.reference (root.instances.head?.bind φ))) ∧
        (∀ s, .sharedString s ∈ valuesOf (classmates l inst.className) n →
          (∀ w ∈ valuesOf (classmates l inst.className) n, w.type = .sharedString) →
          inst'.properties.get? n = some (.sharedString s₀) ∧ UsedShared l s₀) := by
  obtain ⟨stats, h', root', d, h1, h2, hd, h3, _, h5⟩ := roundtrip lz hlz slack quat noXML u it srt hash
    place h root l he.trees he.metadata he.supported he.collisions he.small b hb
  refine ⟨stats, h', root', decodedId l, d.shared, h1, h2, ?_⟩
  intro p inst hp
  obtain ⟨q, inst', g1, g2, _, _, _, _, g7⟩ := h5 p inst hp
  refine ⟨q, inst', g1, g2, ?_⟩
  have hhead : root.instances.head? = (l.map Prod.fst).head? := by
    have hfo := he.trees.1
    generalize root.instances = ps at hfo
    cases hfo with
    | nil => rfl
    | cons => rfl
  intro n hnone
  refine ⟨?_, ?_⟩
  · intro r hr hall
    have hw : Written place (valuesOf (classmates l inst.className) n) := by
      refine ⟨(fun h0 => by rw [h0] at hr; cases hr), .reference, ?_, by simp⟩
      intro v hv; rw [hall v hv]; rfl
    obtain ⟨w, w1, w2⟩ := (g7 n).1 hw
    have := w2.2 hnone _ hr
    simp only at this
    rw [w1, this, hd.1, hhead]
  · intro s hs hall
    have hw : Written place (valuesOf (classmates l inst.className) n) := by
      refine ⟨(fun h0 => by rw [h0] at hs; cases hs), .sharedString, ?_, by simp⟩
      intro v hv; rw [hall v hv]; rfl
    obtain ⟨w, w1, w2⟩ := (g7 n).1 hw
    have := w2.2 hnone _ hs
    simp only at this
    refine ⟨by rw [w1, this], hd.2 ⟨s, ?_⟩⟩
    obtain ⟨i, hi, hi'⟩ := List.mem_filterMap.1 hs
    obtain ⟨x, hx, rfl⟩ := List.mem_map.1 (List.mem_filter.1 hi).1
    exact ⟨x, hx, n, hi'⟩

/-- C16: after decoding a place, an instance is a service exactly if it was one; after decoding a
model, none is. Unique ids are only kept in a place. -/
theorem C16_services : ∃ stats h' root' φ,
    decodeRoot lz slack quat noXML b = ⟨[], [], stats, .ok (.tree h' root')⟩ ∧ Corresp l φ h' ∧
    ∀ p inst, (p, inst) ∈ l → ∃ q inst', φ p = some q ∧ h'.get? q = some inst' ∧
      inst'.isService = (place && inst.isService) ∧
      (place = false → ∀ n, .uniqueId ∈ (valuesOf (classmates l inst.className) n).map Value.type →
        inst'.properties.get? n = none) := by
  obtain ⟨stats, h', root', d, h1, h2, hd, h3, _, h5⟩ := roundtrip lz hlz slack quat noXML u it srt hash
    place h root l he.trees he.metadata he.supported he.collisions he.small b hb
  refine ⟨stats, h', root', decodedId l, h1, h2, ?_⟩
  intro p inst hp
  obtain ⟨q, inst', g1, g2, _, _, g5, _, g7⟩ := h5 p inst hp
  refine ⟨q, inst', g1, g2, g5, ?_⟩
  intro hpl n hn
  apply (g7 n).2
  rintro ⟨_, t, ht, ht2⟩
  obtain ⟨v, hv, hv2⟩ := List.mem_map.1 hn
  have := ht v hv
  rw [hv2] at this
  rw [ht2 this.symm] at hpl
  cases hpl

/-- C18: the metadata is the same map after decoding. -/
theorem C18_metadata : ∃ stats h' root',
    decodeRoot lz slack quat noXML b = ⟨[], [], stats, .ok (.tree h' root')⟩ ∧
    ∀ k, root'.metadata.get? k = root.metadata.get? k := by
  obtain ⟨stats, h', root', d, h1, _, _, _, h4, _⟩ := roundtrip lz hlz slack quat noXML u it srt hash
    place h root l he.trees he.metadata he.supported he.collisions he.small b hb
  exact ⟨stats, h', root', h1, h4⟩

end

/-- C14: the shared strings stored in the file are pairwise different, and each occurs in the tree;
there is at most one chunk of shared strings. -/
theorem C14_stored_once (it : Iter) (srt : Sorter) (hash : Bytes → Bytes) (place : Bool) (h : Heap ρ)
    (root : Root ρ) (l : Map ρ (Inst ρ)) (he : Encodable it srt hash place h root l)
    (f : FormatModel) (hf : codecEncode it srt hash place h root = .ok f) :
    (∀ (i j : Nat) (c c' : SharedChunk) (x y : Bool), f.chunks[i]? = some ⟨.shared c, x⟩ →
      f.chunks[j]? = some ⟨.shared c', y⟩ → i = j) ∧
    ∀ c x, (⟨.shared c, x⟩ : Chunk) ∈ f.chunks →
      (c.values.map Prod.snd).Nodup ∧ ∀ s ∈ c.values.map Prod.snd, UsedShared l s := by
  obtain ⟨names, pairs, props, shared, metas, shareds, e⟩ :=
    encoded it srt hash place h root l he.trees f hf (he.small f hf)
  have hmem : ∀ c x, (⟨.shared c, x⟩ : Chunk) ∈ f.chunks → (⟨.shared c, x⟩ : Chunk) ∈ shareds := by
    intro c x hc
    rw [e.chunks] at hc
    simp only [List.mem_append] at hc
    rcases hc with (hc | hc) | hc | hc | hc
    · rcases e.metas with ⟨h, _⟩ | ⟨vs, _, h⟩ <;> rw [h] at hc <;> simp at hc
    · exact hc
    · simp at hc
    · simp at hc
    · simp at hc
  refine ⟨?_, ?_⟩
  · have hone : shareds.length ≤ 1 := by
      rcases e.shareds with ⟨h, _⟩ | h <;> rw [h] <;> simp
    have hpos : ∀ (i : Nat) (c : SharedChunk) (x : Bool), f.chunks[i]? = some ⟨.shared c, x⟩ →
        i = metas.length ∧ shareds ≠ [] := by
      intro i c x hi
      have hm := hmem c x (List.mem_iff_getElem?.2 ⟨i, hi⟩)
      refine ⟨?_, by rintro h; rw [h] at hm; cases hm⟩
      rw [e.chunks, List.append_assoc] at hi
      by_cases h1 : i < metas.length
      · rw [List.getElem?_append_left h1] at hi
        have := List.mem_iff_getElem?.2 ⟨i, hi⟩
        rcases e.metas with ⟨h, _⟩ | ⟨vs, _, h⟩ <;> rw [h] at this <;> simp at this
      · rw [List.getElem?_append_right (by omega)] at hi
        by_cases h2 : i - metas.length < shareds.length
        · omega
        · rw [List.getElem?_append_right (by omega)] at hi
          have := List.mem_iff_getElem?.2 ⟨_, hi⟩
          simp at this
    intro i j c c' x y hi hj
    rw [(hpos i c x hi).1, (hpos j c' y hj).1]
  · intro c x hc
    have := hmem c x hc
    rcases e.shareds with ⟨h, _⟩ | h <;> rw [h] at this
    · cases this
    · simp only [List.mem_singleton, Chunk.mk.injEq, Body.shared.injEq] at this
      obtain ⟨rfl, _⟩ := this
      simp only [List.map_map]
      refine ⟨?_, ?_⟩
      · have h2 := e.sharedOk.2
        unfold List.Nodup at h2 ⊢
        rw [List.pairwise_map] at h2 ⊢
        refine h2.imp_of_mem ?_
        intro a b ha hb hab e'
        apply hab
        rw [(e.sharedOk.1 a ha).1, (e.sharedOk.1 b hb).1]
        exact congrArg hash e'
      · intro s hs
        obtain ⟨y, hy, rfl⟩ := List.mem_map.1 hs
        exact (e.sharedOk.1 y hy).2

end Props

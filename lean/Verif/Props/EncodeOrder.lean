import Verif.Rbxl.EncOrder
import Verif.Props.EncodeExamples
/-!
# C16, C17: what the encoding depends on
-/
namespace Props
open Go Rbxfile Rbxl Spec

variable {ρ : Type} [DecidableEq ρ]

/-- The metadata chunk, if there is metadata. -/
def metaPart (vs : List (Bytes × Bytes)) : List Chunk :=
  if vs = [] then [] else [⟨.metadata vs, true⟩]

/-- C17: for any two iteration orders of the maps involved (and any two sorting algorithms), the
chunks produced are the same, except that the entries within the metadata chunk may be in another
order; and one run panics exactly if the other does. Missing for the full property: the order of the
metadata, see `C17_metadata_order_fails`. -/
theorem C17_same_chunks_partial (it it' : Iter) (srt srt' : Sorter) (hash : Bytes → Bytes)
    (place : Bool) (h : Heap ρ) (root : Root ρ) :
    match codecEncode it srt hash place h root, codecEncode it' srt' hash place h root with
    | .ok f, .ok g => g = { f with chunks := g.chunks } ∧ ∃ vs vs' rest, vs.Perm vs' ∧
        vs.Perm root.metadata ∧ f.chunks = metaPart vs ++ rest ∧ g.chunks = metaPart vs' ++ rest
    | .panic, .panic => True
    | .err e, .err e' => e = e'
    | _, _ => False := by
  unfold codecEncode
  rcases h1 : instList h root.instances with L | e | _
  · simp only [Res.ok_bind]
    rw [classList_indep it it' srt srt', propChunks_indep it it' srt srt' hash place L _ 0 0]
    rcases h2 : propChunks it' srt' hash place L 0 (classList it' srt' place (L.map Prod.snd)) [] with
      x | e | _
    · simp only [Res.ok_bind]
      rcases h3 : parentLinks h L root.instances with y | e | _
      · simp only [Res.ok_bind, Res.pure_eq]
        have h1 : (srt.run metaLess (it.run [4] root.metadata) = []) ↔ root.metadata.length = 0 := by
          rw [← List.length_eq_zero_iff, (srt.perm _ _).length_eq, (it.perm _ _).length_eq]
        have h2 : (srt'.run metaLess (it'.run [4] root.metadata) = []) ↔
            root.metadata.length = 0 := by
          rw [← List.length_eq_zero_iff, (srt'.perm _ _).length_eq, (it'.perm _ _).length_eq]
        have e1 : (if root.metadata.length = 0 then ([] : List Chunk)
            else [⟨.metadata (srt.run metaLess (it.run [4] root.metadata)), true⟩]) =
            metaPart (srt.run metaLess (it.run [4] root.metadata)) := by
          simp only [metaPart, h1]
        have e2 : (if root.metadata.length = 0 then ([] : List Chunk)
            else [⟨.metadata (srt'.run metaLess (it'.run [4] root.metadata)), true⟩]) =
            metaPart (srt'.run metaLess (it'.run [4] root.metadata)) := by
          simp only [metaPart, h2]
        rw [e1, e2]
        simp only [List.append_assoc]
        exact ⟨trivial, srt.run metaLess (it.run [4] root.metadata),
          srt'.run metaLess (it'.run [4] root.metadata), _,
          ((srt.perm _ _).trans (it.perm _ _)).trans ((srt'.perm _ _).trans (it'.perm _ _)).symm,
          (srt.perm _ _).trans (it.perm _ _), rfl, rfl⟩
      · simp
      · simp
    · simp
    · simp
  · simp
  · simp

/-- C17: with at most one metadata entry, the bytes written do not depend on the iteration order of
the maps. (Nor, by `C17_same_chunks_partial`, does anything but the metadata chunk otherwise.) -/
theorem C17_same_bytes_partial (lz : LZ4) (u : Bool) (it it' : Iter) (srt srt' : Sorter)
    (hash : Bytes → Bytes) (place : Bool) (h : Heap ρ) (root : Root ρ)
    (hm : root.metadata.length ≤ 1) :
    encodeRoot lz u it srt hash place h root = encodeRoot lz u it' srt' hash place h root := by
  have key := C17_same_chunks_partial it it' srt srt' hash place h root
  unfold encodeRoot
  rcases h1 : codecEncode it srt hash place h root with f | e | _ <;>
    rcases h2 : codecEncode it' srt' hash place h root with g | e' | _ <;>
    rw [h1, h2] at key <;> simp only at key
  · obtain ⟨hg, vs, vs', rest, hp, hp2, hf, hg2⟩ := key
    have : vs = vs' := by
      have hl : vs.length ≤ 1 := by rw [hp2.length_eq]; exact hm
      match vs, hl with
      | [], _ => exact (List.nil_perm.1 hp).symm
      | [a], _ => exact (List.singleton_perm.1 hp).symm ▸ rfl
    subst this
    have : g = f := by rw [hg, hg2, ← hf]
    rw [this]
  · rw [key]

/-- The full C17 fails: the same tree with two metadata entries gives different bytes for different
iteration orders of the metadata map, because the entries are compared by the key of one and the
value of the other. -/
theorem C17_metadata_order_fails :
    ∃ (b b' : Bytes) (root : Root Nat),
      encodeRoot LZ4.stored false Iter.id Sorter.insertion exHash true [] root = .ok b ∧
      encodeRoot LZ4.stored false Iter.rev Sorter.insertion exHash true [] root = .ok b' ∧
      b ≠ b' := by
  refine ⟨_, _, { metadata := [([97#8], [122#8]), ([98#8], [122#8])] },
    ok_bytesOf (by decide +kernel), ok_bytesOf (by decide +kernel), by decide +kernel⟩

/-- The chunks of a model, given those of the place with the same tree: chunks of unique ids are
left out, and instances are not marked as services. -/
def modelChunks (cs : List Chunk) : List Chunk :=
  cs.filterMap fun c => match c.body with
    | .prop ⟨_, _, some (.plain .uniqueId _)⟩ => none
    | .inst ⟨cid, cls, ids, _, _⟩ =>
      some ⟨.inst ⟨cid, cls, ids, false, List.replicate ids.length 0#8⟩, c.compressed⟩
    | _ => some c

theorem modelChunks_append (a b : List Chunk) :
    modelChunks (a ++ b) = modelChunks a ++ modelChunks b := by simp [modelChunks]

theorem modelChunks_props (ps : List PropChunk) :
    modelChunks (ps.map fun c => ⟨.prop c, true⟩) =
      (ps.filter keptProp).map fun c => ⟨.prop c, true⟩ := by
  induction ps with
  | nil => rfl
  | cons c ps ih =>
    simp only [modelChunks, List.map_cons] at ih ⊢
    rw [List.filterMap_cons]
    obtain ⟨cid, n, a⟩ := c
    by_cases hk : keptProp ⟨cid, n, a⟩ = true
    · rw [List.filter_cons_of_pos hk, List.map_cons, ← ih]
      unfold keptProp at hk
      split
      · rename_i h; split at h
        · rename_i h'; cases h'; simp at hk
        · cases h
        · cases h
      · rename_i h; split at h
        · cases h
        · rename_i h'; cases h'
        · cases h; rfl
    · rw [List.filter_cons_of_neg hk, ← ih]
      unfold keptProp at hk
      split at hk
      · rename_i h; simp only at h; subst h; rfl
      · exact absurd rfl hk

theorem modelChunks_insts (cs : List InstChunk) :
    modelChunks (cs.map fun c => ⟨.inst c, true⟩) =
      (cs.map clearService).map fun c => ⟨.inst c, true⟩ := by
  induction cs with
  | nil => rfl
  | cons c cs ih =>
    simp only [modelChunks, List.map_cons] at ih ⊢
    rw [List.filterMap_cons]
    simp only [ih]
    rfl

/-- C16: encoding the same tree as a model gives the same counts and chunks as encoding it as a
place, except for unique ids and service marks; and it fails exactly if the other does. (With equal
iteration orders of the metadata; the order of other maps does not matter.) -/
theorem C16_model_chunks (it : Iter) (srt : Sorter) (hash : Bytes → Bytes) (h : Heap ρ)
    (root : Root ρ) :
    match codecEncode it srt hash true h root, codecEncode it srt hash false h root with
    | .ok f, .ok g => g = { f with chunks := modelChunks f.chunks }
    | .panic, .panic => True
    | .err e, .err e' => e = e'
    | _, _ => False := by
  unfold codecEncode
  rcases h1 : instList h root.instances with L | e | _
  · simp only [Res.ok_bind]
    rw [propChunks_place it it srt srt hash L (classList it srt true (L.map Prod.snd)) _ 0 0 [] (by
      rw [classList_place it it srt srt, List.map_map]; rfl)]
    rcases h2 : propChunks it srt hash true L 0 (classList it srt true (L.map Prod.snd)) [] with
      x | e | _
    · simp only [Res.ok_bind, dropUnique]
      rcases h3 : parentLinks h L root.instances with y | e | _
      · simp only [Res.ok_bind, Res.pure_eq, modelChunks_append, modelChunks_props,
          modelChunks_insts, ← classList_place it it srt srt]
        have e1 : ∀ (b : Nat) (vs : List (Bytes × Bytes)), modelChunks (if b = 0 then [] else
            [⟨.metadata vs, true⟩]) = if b = 0 then [] else [⟨.metadata vs, true⟩] := by
          intro b vs; split <;> rfl
        have e2 : ∀ (b : Nat) (vs : SharedChunk), modelChunks (if b = 0 then [] else
            [⟨.shared vs, true⟩]) = if b = 0 then [] else [⟨.shared vs, true⟩] := by
          intro b vs; split <;> rfl
        rw [e1, e2]
        have e3 : (classList it srt false (L.map Prod.snd)).length =
            (classList it srt true (L.map Prod.snd)).length := by
          rw [classList_place it it srt srt, List.length_map]
        rw [e3]
        rfl
      · simp [dropUnique]
      · simp [dropUnique]
    · simp [dropUnique]
    · simp [dropUnique]
  · simp
  · simp

end Props

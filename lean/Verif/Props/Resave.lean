import Verif.Rbxl.Resave
import Verif.Props.EncodeOrder
/-!
# C90: saving a decoded file again
-/
namespace Props
open Go Rbxfile Rbxl Spec

variable {ρ : Type} [DecidableEq ρ]

theorem meta_eq (srt : Sorter) (it : Iter) (m : Map Bytes Bytes) : (if m.length = 0 then ([] : List Chunk)
      else [⟨.metadata (srt.run metaLess (it.run [4] m)), true⟩]) = metaPart (srt.run metaLess (it.run [4] m)) := by
  have h1 : (srt.run metaLess (it.run [4] m) = []) ↔ m.length = 0 := by
    rw [← List.length_eq_zero_iff, (srt.perm _ _).length_eq, (it.perm _ _).length_eq]
  simp only [metaPart, h1]

section
variable (lz : LZ4) (hlz : lz.Lossless) (slack : Bytes → Nat) (quat : Quat) (noXML u : Bool)
  (it it' : Iter) (srt srt' : Sorter) (hash : Bytes → Bytes) (place : Bool) (h : Heap ρ) (root : Root ρ)
  (l : Map ρ (Inst ρ)) (he : Encodable it srt hash place h root l) (b : Bytes)
  (hb : encodeRoot lz u it srt hash place h root = .ok b)
include hlz he hb

/-- C90: a written file is decoded to a tree; writing that tree again, for any iteration order of the maps and any sorting
algorithm, gives the same file, except that the entries within the metadata chunk may be in another order: the 32 bytes before
that chunk and everything behind it are the same. Missing for the full property: the order of the metadata, see
`C90_metadata_order_fails`, and optional values of interleaved types (`Encodable.supported`), see `C90_optional_fails`. -/
theorem C90_resaved_partial : ∃ (stats : Stats) (h' : Heap Id) (root' : Root Id),
    decodeRoot lz slack quat noXML b = ⟨[], [], stats, .ok (.tree h' root')⟩ ∧
    ∃ header vs vs' metas tail, vs.Perm root.metadata ∧ vs'.Perm root.metadata ∧ header.length = 32 ∧
      b = header ++ metas ++ tail ∧ writeChunks lz u (metaPart vs) = .ok metas ∧
      ∀ metas', writeChunks lz u (metaPart vs') = .ok metas' →
        encodeRoot lz u it' srt' hash place h' root' = .ok (header ++ metas' ++ tail) := by
  obtain ⟨stats, h', root', h1, h2, header, metas, tail, h3, h4, h5, h6⟩ := resave lz hlz slack quat noXML u it it' srt srt'
    hash place h root l he.trees he.metadata he.supported he.collisions he.small b hb
  rw [meta_eq] at h5 h6
  refine ⟨stats, h', root', h1, header, _, _, metas, tail, (srt.perm _ _).trans (it.perm _ _),
    ((srt'.perm metaLess _).trans (it'.perm [4] _)).trans h2, h4, h3, h5, ?_⟩
  intro metas' hm
  rw [h6, hm]
  rfl

/-- C90: with at most one metadata entry, writing the decoded tree again gives the same bytes. -/
theorem C90_same_bytes_partial (hm : root.metadata.length ≤ 1) : ∃ (stats : Stats) (h' : Heap Id) (root' : Root Id),
    decodeRoot lz slack quat noXML b = ⟨[], [], stats, .ok (.tree h' root')⟩ ∧
    ∀ (it' : Iter) (srt' : Sorter), encodeRoot lz u it' srt' hash place h' root' = .ok b := by
  obtain ⟨stats, h', root', h1, _⟩ := resave lz hlz slack quat noXML u it it srt srt
    hash place h root l he.trees he.metadata he.supported he.collisions he.small b hb
  refine ⟨stats, h', root', h1, ?_⟩
  intro it' srt'
  obtain ⟨stats2, h2, root2, g1, g2, header, metas, tail, g3, g4, g5, g6⟩ := resave lz hlz slack quat noXML u it it' srt srt'
    hash place h root l he.trees he.metadata he.supported he.collisions he.small b hb
  rw [h1] at g1
  simp only [DecodeOut.mk.injEq, Res.ok.injEq, Out.tree.injEq, true_and] at g1
  obtain ⟨rfl, rfl, rfl⟩ := g1
  rw [meta_eq] at g5 g6
  have : srt'.run metaLess (it'.run [4] root'.metadata) = srt.run metaLess (it.run [4] root.metadata) := by
    have e1 := ((srt'.perm metaLess _).trans (it'.perm [4] root'.metadata)).trans g2
    have e2 := (srt.perm metaLess _).trans (it.perm [4] root.metadata)
    generalize srt'.run metaLess (it'.run [4] root'.metadata) = x at *
    generalize srt.run metaLess (it.run [4] root.metadata) = y at *
    generalize root.metadata = m at *
    match m, hm with
    | [], _ => rw [List.perm_nil.1 e1, List.perm_nil.1 e2]
    | [a], _ => rw [List.perm_singleton.1 e1, List.perm_singleton.1 e2]
  rw [g6, this, g5, g3]
  rfl

end

/-- The example tree is saved, decoded and saved again. -/
example (quat : Quat) (place : Bool) : ∃ (b : Bytes) (stats : Stats) (h' : Heap Id) (root' : Root Id),
    encodeRoot LZ4.stored false Iter.id Sorter.insertion exHash place exHeap exRoot = .ok b ∧
    decodeRoot LZ4.stored (fun _ => 0) quat false b = ⟨[], [], stats, .ok (.tree h' root')⟩ ∧
    encodeRoot LZ4.stored false Iter.rev Sorter.insertion exHash place h' root' = .ok b := by
  obtain ⟨b, hb⟩ := exEncoded place
  obtain ⟨stats, h', root', h1, h2⟩ := C90_same_bytes_partial _ LZ4.stored_lossless (fun _ => 0) quat false false _ _ _ place _ _ _
    (exEncodable place) b hb (by decide)
  exact ⟨b, stats, h', root', hb, h1, h2 _ _⟩

/-- The tree of a result. -/
def treeOf : Res Out → Heap Id × Root Id
  | .ok (.tree h root) => (h, root)
  | _ => ([], {})

/-- Whether a result is a tree. -/
def isTree : Res Out → Bool
  | .ok (.tree _ _) => true
  | _ => false

theorem ok_treeOf {x : Res Out} (h : isTree x = true) : x = .ok (.tree (treeOf x).1 (treeOf x).2) := by
  unfold isTree at h
  split at h
  · rfl
  · cases h

/-- The full C90 fails: with two metadata entries, the file saved again may differ. -/
theorem C90_metadata_order_fails : ∃ (b b' : Bytes) (root : Root Nat) (h' : Heap Id) (root' : Root Id),
    Encodable Iter.id Sorter.insertion exHash true [] root [] ∧
    encodeRoot LZ4.stored false Iter.id Sorter.insertion exHash true [] root = .ok b ∧
    (decodeRoot LZ4.stored (fun _ => 0) (fun _ _ _ _ => default) false b).result = .ok (.tree h' root') ∧
    encodeRoot LZ4.stored false Iter.id Sorter.insertion exHash true h' root' = .ok b' ∧ b ≠ b' := by
  refine ⟨_, _, { metadata := [([97#8], [122#8]), ([98#8], [122#8])] }, _, _, ?_,
    ok_bytesOf (by decide +kernel), ok_treeOf (by decide +kernel), ok_bytesOf (by decide +kernel), by decide +kernel⟩
  exact ⟨⟨.nil, by unfold Map.Ok; decide⟩, by unfold Map.Ok; decide, nofun, (fun s _ h => by obtain ⟨_, h, _⟩ := h; cases h),
    small_of_smallB (by decide +kernel)⟩

/-- The full C90 fails for an optional number: the property is lost when the file is saved again. -/
theorem C90_optional_fails : ∃ (b b' : Bytes) (h' : Heap Id) (root' : Root Id),
    encodeRoot LZ4.stored false Iter.id Sorter.insertion exHash true optHeap { instances := [0] } = .ok b ∧
    (decodeRoot LZ4.stored (fun _ => 0) (fun _ _ _ _ => default) false b).result = .ok (.tree h' root') ∧
    encodeRoot LZ4.stored false Iter.id Sorter.insertion exHash true h' root' = .ok b' ∧ b ≠ b' := by
  refine ⟨_, _, _, _, ok_bytesOf (by decide +kernel), ok_treeOf (by decide +kernel), ok_bytesOf (by decide +kernel), by decide +kernel⟩

end Props

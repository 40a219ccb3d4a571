import Verif.Rbxl.WireRead
import Verif.Props.Framing
import Verif.Props.EncodeExamples
/-!
# C99: the bytes of a binary file
-/
namespace Props
open Go Rbxfile Rbxl Spec

variable {ρ : Type} [DecidableEq ρ]

/-- C99: the file that is written for a tree is, byte by byte, one of the format: it consists of chunks that describe the tree
(`Spec.Wire.TreeModel`), and these are written as `Spec.Wire.File` says. -/
theorem C99_tree (lz : LZ4) (u : Bool) (it : Iter) (srt : Sorter) (hash : Bytes → Bytes) (place : Bool) (h : Heap ρ)
    (root : Root ρ) (l : Map ρ (Inst ρ)) (ht : Trees h root.instances l) (hn : l.length < 2 ^ 31)
    (hc : ∀ s s', UsedShared l s → UsedShared l s' → hash s = hash s' → s = s') (b : Bytes)
    (hb : encodeRoot lz u it srt hash place h root = .ok b) :
    ∃ m, Wire.TreeModel place root.metadata h root.instances l m ∧ Wire.File lz u m b := by
  obtain ⟨m, h1, h2, -⟩ := encodeRoot_wire ht hn hc hb
  exact ⟨m, h1, h2⟩

/-- C99: a model of chunks that can be read is written as the format says, and as nothing else. -/
theorem C99_file (lz : LZ4) (u : Bool) (m : FormatModel) (hg : GoodChunks [] 0 m.chunks) (b : Bytes) :
    encodeFile lz u m = .ok b ↔ Wire.File lz u m b :=
  ⟨file_wire fun c hc => (goodChunks_content hg c hc).1, file_write fun c hc => (goodChunks_content hg c hc).2⟩

/-- C99: any file that has the bytes that the format asks for is read as the chunks it has (without the fields that are not
stored, `Chunk.back`), whoever wrote it. -/
theorem C99_read (lz : LZ4) (hlz : lz.Lossless) (slack : Bytes → Nat) (noXML u : Bool) (m : FormatModel) (hv : m.version = 0)
    (hg : GoodChunks [] 0 m.chunks) (b : Bytes) (hb : Wire.File lz u m b) :
    ∃ stats, decodeFile lz slack noXML false b =
      ((m.chunks.zipIdx 0).flatMap (fun c => backWarns u c.2 c.1), stats,
        .ok (.model ⟨0, m.classCount, m.instanceCount, m.chunks.map (Chunk.back u), m.trailing, groupsOf [] 0 m.chunks⟩)) := by
  obtain ⟨stats, h, -⟩ := C08_file_roundtrip lz hlz slack noXML u m hv hg b ((C99_file lz u m hg b).2 hb)
  exact ⟨stats, h⟩

/-- C99: any file of a tree that has the bytes that the format asks for, whoever wrote it, is decoded to that tree: without
warnings, there is a one-to-one correspondence `φ` of the instances that preserves the roots, the children, class names and
services, the metadata is the same, and the properties that are written have the values that the format keeps (`Expected`). -/
theorem C99_decode (lz : LZ4) (hlz : lz.Lossless) (slack : Bytes → Nat) (quat : Quat) (noXML u place : Bool) (h : Heap ρ)
    (root : Root ρ) (l : Map ρ (Inst ρ)) (ht : Trees h root.instances l) (hn : l.length < 2 ^ 31) (hmeta : root.metadata.Ok)
    (hsup : ∀ x ∈ l, ∀ n v, x.2.properties.get? n = some v → Supported v) (m : FormatModel)
    (hm : Wire.TreeModel place root.metadata h root.instances l m)
    (hsmall : ∀ c ∈ m.chunks, (Wire.content c.body).length < 2 ^ 32) (b : Bytes) (hb : Wire.File lz u m b) :
    ∃ stats h' root' φ d, decodeRoot lz slack quat noXML b = ⟨[], [], stats, .ok (.tree h' root')⟩ ∧ Corresp l φ h' ∧
      root'.instances.map some = root.instances.map φ ∧ (∀ k, root'.metadata.get? k = root.metadata.get? k) ∧
      (d.first = (l.map Prod.fst).head?.bind φ ∧ ((∃ s, UsedShared l s) → UsedShared l d.shared)) ∧
      ∀ p inst, (p, inst) ∈ l → ∃ q inst', φ p = some q ∧ h'.get? q = some inst' ∧
        inst'.className = inst.className ∧ inst'.isService = (place && inst.isService) ∧
        inst'.children.map some = inst.children.map φ ∧
        ∀ n, (Written place (valuesOf (classmates l inst.className) n) →
            ∃ w, inst'.properties.get? n = some w ∧
              Expected φ d (valuesOf (classmates l inst.className) n) (inst.properties.get? n) w) ∧
          (¬ Written place (valuesOf (classmates l inst.className) n) → inst'.properties.get? n = none) := by
  obtain ⟨stats, h', root', d, h1, h2, h3, h4, h5, h6⟩ :=
    wire_roundtrip lz hlz slack quat noXML u place h root l ht hn hmeta hsup m hm hsmall b hb
  refine ⟨stats, h', root', decodedId l, d, h1, h2, h4, h5, h3, ?_⟩
  intro p inst hp
  obtain ⟨q, inst', g1, g2, g3, -, g4, g5, g6⟩ := h6 p inst hp
  exact ⟨q, inst', g1, g2, g3, g4, g5, g6⟩

/-- The example tree has a file as the format asks for, so that it is decoded. -/
example (place : Bool) (slack : Bytes → Nat) (quat : Quat) : ∃ m b stats h' root',
    Wire.TreeModel place exRoot.metadata exHeap exRoot.instances exList m ∧ Wire.File LZ4.stored false m b ∧
    decodeRoot LZ4.stored slack quat true b = ⟨[], [], stats, .ok (.tree h' root')⟩ := by
  have he := exEncodable place
  obtain ⟨b, hb⟩ := exEncoded place
  obtain ⟨m, h1, h2, h3⟩ := encodeRoot_wire he.trees (by decide) he.collisions hb
  obtain ⟨stats, h', root', φ, d, g, -⟩ := C99_decode LZ4.stored LZ4.stored_lossless slack quat true false place exHeap exRoot exList
    he.trees (by decide) he.metadata he.supported m h1 (h3 he.small) b h2
  exact ⟨m, b, stats, h', root', h1, h2, g⟩

/-- An instance `A` with the name `P` and the number -2 as property `N`. -/
def wireHeap : Heap Nat := [(0, { className := str "A", properties := [(str "N", .int (-2)), (str "S", .string (str "P"))] })]

/-- All bytes of a file: the header, the class `A` with the instance 0, the property `N` with the number -2 (3, moved by the
zigzag), the property `S`, the parent -1 of instance 0, and the end. -/
example : encodeRoot LZ4.stored true Iter.id Sorter.insertion exHash true wireHeap ⟨[0], []⟩ = .ok (
    [60, 114, 111, 98, 108, 111, 120, 33, 137, 255, 13, 10, 26, 10] ++ [0, 0] ++ [1, 0, 0, 0] ++ [1, 0, 0, 0] ++
      [0, 0, 0, 0, 0, 0, 0, 0] ++
    ([73, 78, 83, 84, 0, 0, 0, 0, 18, 0, 0, 0, 0, 0, 0, 0] ++ [0, 0, 0, 0, 1, 0, 0, 0, 65, 0, 1, 0, 0, 0, 0, 0, 0, 0]) ++
    ([80, 82, 79, 80, 0, 0, 0, 0, 14, 0, 0, 0, 0, 0, 0, 0] ++ [0, 0, 0, 0, 1, 0, 0, 0, 78, 3, 0, 0, 0, 3]) ++
    ([80, 82, 79, 80, 0, 0, 0, 0, 15, 0, 0, 0, 0, 0, 0, 0] ++ [0, 0, 0, 0, 1, 0, 0, 0, 83, 1, 1, 0, 0, 0, 80]) ++
    ([80, 82, 78, 84, 0, 0, 0, 0, 13, 0, 0, 0, 0, 0, 0, 0] ++ [0, 1, 0, 0, 0, 0, 0, 0, 0, 0, 0, 0, 1]) ++
    ([69, 78, 68, 0, 0, 0, 0, 0, 9, 0, 0, 0, 0, 0, 0, 0] ++ [60, 47, 114, 111, 98, 108, 111, 120, 62])) := by rfl

/-- The numbers 1 and -1 as floats, and the columns of the numbers 1 and -1, 256 and 255. -/
example : Wire.float 0x3f800000 = [127, 0, 0, 0] ∧ Wire.float 0xbf800000 = [127, 0, 0, 1] ∧
    Wire.elements .int [.int 1, .int (-1)] = [0, 0, 0, 0, 0, 0, 2, 1] ∧
    Wire.elements .reference [.reference 1, .reference 3, .reference 2] = [0, 0, 0, 0, 0, 0, 0, 0, 0, 2, 4, 1] := by decide

end Props

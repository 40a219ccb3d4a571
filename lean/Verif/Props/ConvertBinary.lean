import Verif.Props.DecodeBinary
import Verif.Props.XmlTree
import Verif.Props.XmlTreeExamples
import Verif.Props.ConvertXml
import Verif.Props.FreshExamples
import Verif.Rbxl.DecodeOk
/-!
# C72: converting a binary file to an XML file

`DecodesTo … b f h root`: the binary file `b`, with the chunks `f`, is decoded to the tree `(h, root)`. `encode P L h root`
is `Encoder.Encode` and `decode` is `Decoder.Decode` of the XML package.
-/
namespace Props
open Go Rbxfile Rbxl Spec
open Rbxlx (Params Layout Legible)

/-- What is true of the instances of every accepted binary file. -/
theorem binary_heap {lz slack quat noXML b f h root} (d : DecodesTo lz slack quat noXML b f h root) :
    root.metadata.Ok ∧ ∀ p inst, h.get? p = some inst → inst.reference = [] ∧ inst.properties.Ok ∧
      ∀ n v, inst.properties.get? n = some v → (∀ s, v ≠ .protectedString s) ∧
        ∀ q, v = .reference (some q) → (h.get? q).isSome := by
  obtain ⟨ws, e⟩ := d.codec
  have hok := codecDecode_properMaps e
  obtain ⟨-, -, -, st, rfl, rfl, hi⟩ := d.facts
  refine ⟨hi.metadata ▸ ok_foldl_set _ _ Map.ok_nil, ?_⟩
  intro p inst hp
  obtain ⟨-, -, -, -, -, -, -, hr, -⟩ := hi.cls p inst hp
  refine ⟨hr, hok p inst hp, ?_⟩
  intro n v hv
  obtain ⟨j, cls, a, pos, g, i, -, -, -, hread, -⟩ := (hi.props p inst hp n v).1 hv
  have hdv : ∀ {x : Val} {w : Value Rbxl.Id}, decodeValue quat x = some w → (∀ s, w ≠ .protectedString s) ∧
      ∀ q, w ≠ .reference (some q) := by
    intro x w hw
    cases x <;> simp only [decodeValue, Option.some.injEq, reduceCtorEq] at hw <;> subst hw <;> exact ⟨nofun, nofun⟩
  cases hread with
  | reference hx =>
    refine ⟨nofun, ?_⟩
    intro q hq
    simp only [Value.reference.injEq] at hq
    split at hq
    · rename_i x hmem
      cases hq
      rw [Map.get?_isSome, hi.keys]
      exact declared_take hmem
    · cases hq
  | sharedString hx => exact ⟨nofun, nofun⟩
  | plain h1 h2 hx hd => exact ⟨(hdv hd).1, fun q hq => absurd hq ((hdv hd).2 q)⟩
  | some h1 h2 hd => exact ⟨nofun, nofun⟩
  | none h1 => exact ⟨nofun, nofun⟩

/-- The instances of a forest are in the heap. -/
theorem forest_mem {ρ : Type} [DecidableEq ρ] {h : Heap ρ} {ps : List ρ} {l : Map ρ (Inst ρ)} (f : Forest h ps l) :
    ∀ p inst, (p, inst) ∈ l → h.get? p = some inst := by
  induction f with
  | nil => intro p i hp; cases hp
  | cons h1 _ _ ih1 ih2 =>
    intro p i hp
    rcases List.mem_cons.1 hp with e | hp
    · cases e; exact h1
    · rcases List.mem_append.1 hp with hp | hp
      · exact ih1 p i hp
      · exact ih2 p i hp

section
variable {lz : LZ4} {slack : Bytes → Nat} {quat : Quat} {noXML : Bool} {b : Bytes} {f : FormatModel} {h : Heap Rbxl.Id}
  {root : Root Rbxl.Id} (d : DecodesTo lz slack quat noXML b f h root)
  (hn : LinkedOnce (linksOf (beforeEnd f.chunks)))
include d hn

/-- The tree decoded from a binary file is encoded as XML, and what is written is accepted by the parser, if the random
source does not repeat itself (`Fresh`, as in C29). `l` are the instances of the tree. No ProtectedString can be in the
way, as the binary format has none. Missing: files with links that name a child twice (C69). -/
theorem C72_converts_partial (P : Params) (L : Layout) (hg : GoParams P) (hpre : ∀ x ∈ L.pre, XmlSpace x)
    (hind : ∀ x ∈ L.indent, XmlSpace x) (hroot : L.excludeRoot = false) :
    ∃ l, Trees h root.instances l ∧ (Fresh P.gen (Rbxlx.demand l) P.attempts → ∃ x h1, Rbxlx.encode P L h root = .ok (x, h1) ∧
      ∃ doc, Rbxlx.readFrom x = .ok (some doc, L.suffix) ∧ doc.head.startName = str "roblox") := by
  obtain ⟨l, hl⟩ := (C69_trees_iff d).2 hn
  obtain ⟨-, hb⟩ := binary_heap d
  refine ⟨l, hl, fun hf => ?_⟩
  obtain ⟨x, h1, he⟩ := C65_returns P L h root l hg hf hl (by
    rintro ⟨p, inst⟩ hx m q hq
    exact ((hb p inst (forest_mem hl.1 p inst hx)).2.2 m _ hq).2 q rfl)
  refine ⟨x, h1, he, ?_⟩
  refine C41_accepted_partial P L h root l ⟨hg, hl, ?_, ?_, hpre, hind, hroot⟩ x h1 he
  · rintro ⟨p, inst⟩ hx
    exact (hb p inst (forest_mem hl.1 p inst hx)).2.1
  · rintro ⟨p, inst⟩ hx n s hs
    exact absurd rfl (((hb p inst (forest_mem hl.1 p inst hx)).2.2 n _ hs).1 s)

/-- Decoding the XML file gives the tree of the binary file: the instances `l` that can be reached from the root
correspond one to one, with the same roots and children, the same classes (up to line ends), and no other
properties; those with a value that XML can store (`XmlSupported`) having the same value up to `XmlKept`. Whether an
instance is a service is lost. Missing: files with links that name a child twice (C69), names with carriage returns. -/
theorem C72_same_tree_partial (P : Params) (L : Layout) (discard : Bool) (hg : GoParams P)
    (hpre : ∀ x ∈ L.pre, XmlSpace x) (hind : ∀ x ∈ L.indent, XmlSpace x) (hroot : L.excludeRoot = false)
    (href : P.excludeReferent = false)
    (hnames : ∀ p inst, h.get? p = some inst → ∀ n v, inst.properties.get? n = some v → 13#8 ∉ n)
    (hc : ∀ s s', UsedShared h s → UsedShared h s' → P.hash s = P.hash s' → s = s')
    (x : Bytes) (h1 : Heap Rbxl.Id) (he : Rbxlx.encode P L h root = .ok (x, h1)) :
    ∃ l h' root' φ, Trees h root.instances l ∧ Rbxlx.decode P.F discard x = .ok (h', root') ∧ Corresp l φ h' ∧
      root'.instances.map some = root.instances.map φ ∧
      ((∀ k v, root.metadata.get? k = some v → 13#8 ∉ k) → ∀ k, root'.metadata.get? k =
        if P.excludeMetadata then none else (root.metadata.get? k).map normText) ∧
      ∀ p inst, (p, inst) ∈ l → ∃ q inst', φ p = some q ∧ h'.get? q = some inst' ∧
        inst'.className = normNewlines inst.className ∧ inst'.isService = false ∧
        inst'.children.map some = inst.children.map φ ∧
        ∀ n, (inst.properties.get? n = none → inst'.properties.get? n = none) ∧
          ∀ v, inst.properties.get? n = some v → XmlSupported v →
            ∃ w, inst'.properties.get? n = some w ∧ XmlKept φ v w := by
  obtain ⟨l, hl⟩ := (C69_trees_iff d).2 hn
  obtain ⟨hm, hb⟩ := binary_heap d
  have hget := forest_mem hl.1
  have hw : XmlEncodable P L h root l := by
    refine ⟨⟨hg, hl, ?_, ?_, hpre, hind, hroot⟩, hm, ?_, ?_, ?_⟩
    · rintro ⟨p, inst⟩ hx
      exact (hb p inst (hget p inst hx)).2.1
    · rintro ⟨p, inst⟩ hx n s hs
      exact absurd rfl (((hb p inst (hget p inst hx)).2.2 n _ hs).1 s)
    · intro p a ha
      rw [(hb p a ha).1]; simp
    · rintro ⟨p, inst⟩ hx n v hv
      exact hnames p inst (hget p inst hx) n v hv
    · intro s s' hs hs'
      have sub : ∀ s, UsedShared l s → UsedShared h s := by
        rintro s ⟨y, hy, n, hv⟩
        obtain ⟨p, inst⟩ := y
        exact ⟨(p, inst), Map.mem_of_get? (hget p inst hy), n, hv⟩
      exact hc s s' (sub s hs) (sub s' hs')
  obtain ⟨h2, root2, hd, D⟩ := Rbxlx.xml_roundtrip hw.to discard he
  refine ⟨l, h2, root2, _, hl, hd, D.corresp, D.roots, D.metadata, ?_⟩
  intro p inst hp
  obtain ⟨q, inst', r, a1, a2, a3, a4, a5, a6, a7, a8, a9⟩ := D.insts p inst hp
  refine ⟨q, inst', a1, a2, a5, a7, a8, fun n => ⟨?_, ?_⟩⟩
  · intro h0
    rw [a9, h0]; rfl
  · intro v hv hs
    obtain ⟨w, w1, w2⟩ := Rbxlx.kept_final discard (Rbxlx.decodedAs l) v hs
    refine ⟨w, ?_, w2⟩
    rw [a9, hv, href, hg.floats]
    exact w1

end

/-! ### An example: the file of C68 with a Part in a Part, each with a Link -/

/-- The tree of the file. -/
def linkHeap : Heap Rbxl.Id :=
  [(0, { className := str "Part", children := [1], properties := [(str "Link", .reference (some 0))] }),
    (1, { className := str "Part", properties := [(str "Link", .reference none)] })]

theorem link_demand {l : Map Rbxl.Id (Inst Rbxl.Id)} (hl : Trees linkHeap [0] l) : Rbxlx.demand l ≤ 4 := by
  obtain ⟨hf, -⟩ := hl
  cases hf with
  | cons h1 h2 h3 =>
    cases h1
    cases h3
    cases h2 with
    | cons h1 h2 h3 => cases h1; cases h2; cases h3; decide

/-- It is converted. -/
example : ∃ x h1, Rbxlx.encode exP {} linkHeap { instances := [0] } = .ok (x, h1) := by
  obtain ⟨l, hl, h⟩ := C72_converts_partial linkFile_ok (linkedOnce_of_nodup (by decide +kernel)) exP {} ⟨rfl, counter, counter_length, rfl⟩
    (by decide) (by decide) rfl
  obtain ⟨x, h1, he, -⟩ := h (Fresh_mono (counter_fresh 7 (by omega)) (Nat.le_trans (link_demand hl) (by omega)) (Nat.le_refl _))
  exact ⟨x, h1, he⟩

/-- The tree after the conversion, without the generated references. -/
def linkBack : Res (Heap Nat × Root Nat) :=
  Rbxlx.encode exP {} linkHeap { instances := [0] } >>= fun x => Rbxlx.decode goFloat false x.1 >>= fun y =>
    .ok (y.1.map fun z => (z.1, { z.2 with reference := [] }), y.2)

/-- The links are those of the file. -/
example : linkBack = .ok (
    [(0, { className := str "Part", children := [1], properties := [(str "Link", .reference (some 0))] }),
      (1, { className := str "Part", properties := [(str "Link", .reference none)] })], { instances := [0] }) := by
  decide +kernel

/-- The tree of every binary file that is accepted can be encoded as XML. False of the code: the tree of a file that
names a child twice (`C69_trees_fails`) can contain itself, and the encoder overflows the stack. -/
theorem C72_converts_fails : ¬ ∀ (b : Bytes) (f : FormatModel) (h : Heap Rbxl.Id) (root : Root Rbxl.Id),
    DecodesTo LZ4.stored (fun _ => 0) (fun _ _ _ _ => default) true b f h root →
    ∃ x h1, Rbxlx.encode exP {} h root = .ok (x, h1) := by
  intro hall
  obtain ⟨x, h1, he⟩ := hall _ _ _ _ loopFile
  have : (Rbxlx.encode exP {} loopHeap { instances := [0] } : Res (Bytes × Heap Rbxl.Id)) = .panic := by decide +kernel
  rw [this] at he
  cases he

end Props

import Verif.Rbxlx.DecodeFinal
import Verif.Rbxlx.GoFloat
import Verif.Rbxfile.ValueEq
/-!
# C70: decoding an XML document builds what its tags say

`decode F discard s` is `Decoder.Decode` of the XML package, `discard` the setting `DiscardInvalidProperties`; `doc` is
the root tag that the parser reads from the bytes `s`. The vocabulary (`Builds`, `PropsOf`, `propertyOf`, `targetOf`,
`metaPairs`) is in `Verif/Spec/DecodeXml.lean`.
-/
namespace Props
open Go Rbxfile Rbxlx Spec

/-- The decoded instances are trees that mirror the Item tags of the document: class, referent, children in order, and
exactly the properties that the tags in its first Properties tag say. There are no other instances. -/
theorem C70_instances {F : FloatText} {discard : Bool} {s rest : Bytes} {doc : Tag} {h : Heap Nat} {root : Root Nat}
    (hr : readFrom s = .ok (some doc, rest)) (hd : decode F discard s = .ok (h, root)) :
    ∃ l, Builds h (fun _ => PropsOf F discard doc.tags l) doc.tags root.instances l ∧ Trees h root.instances l ∧
      ∀ p, (∃ inst, h.get? p = some inst) ↔ p ∈ l.map Prod.fst := by
  simp only [decode, hr] at hd
  obtain ⟨l, h1, h2, h3, -⟩ := codecDecode_spec hd
  refine ⟨l, h1, ⟨builds_forest h1, ?_⟩, ?_⟩
  · unfold Map.Ok; rw [h2]; exact List.nodup_range
  · intro p
    rw [← Option.isSome_iff_exists, Map.get?_isSome, h2, h3]

/-- The metadata are those of the Meta tags, the last tag of a name counting. -/
theorem C70_metadata {F : FloatText} {discard : Bool} {s rest : Bytes} {doc : Tag} {h : Heap Nat} {root : Root Nat}
    (hr : readFrom s = .ok (some doc, rest)) (hd : decode F discard s = .ok (h, root)) (k : Bytes) :
    root.metadata.get? k = (((metaPairs doc.tags).filter fun a => decide (a.1 = k)).getLast?).map Prod.snd := by
  simp only [decode, hr] at hd
  obtain ⟨l, -, -, -, h4⟩ := codecDecode_spec hd
  rw [h4, foldl_set_last]
  simp [Map.get?]

/-- A document without a root tag is decoded to an empty root. -/
theorem C70_no_root {F : FloatText} {discard : Bool} {s rest : Bytes} (hr : readFrom s = .ok (none, rest)) :
    decode F discard s = .ok ([], {}) := by
  simp only [decode, hr, codecDecode]

/-! ### An example: two Items with the same referent, a forward reference, a shared string, a property given twice -/

/-- A document. -/
def mixedDoc : Bytes := str (
  "<roblox version=\"4\"><Meta name=\"M\">1</Meta><Meta name=\"M\">2</Meta>" ++
  "<Item class=\"A\" referent=\"R\"><Item class=\"B\" referent=\"R\"/>" ++
  "<Properties><Ref name=\"P\">R</Ref><int name=\"Q\">1</int><int name=\"Q\">2</int>" ++
  "<SharedString name=\"S\">YQ==</SharedString><int name=\"S\">3</int></Properties>" ++
  "<Properties><int name=\"T\">4</int></Properties></Item>" ++
  "<Item referent=\"R\"></Item>" ++
  "<SharedStrings><SharedString md5=\"YQ==\">Yg==</SharedString></SharedStrings></roblox>")

example : decode goFloat false mixedDoc = .ok (
    [(0, ⟨str "A", str "R", false, [(str "Q", .int 2), (str "S", .sharedString (str "b")), (str "P", .reference (some 1))], [1]⟩),
     (1, ⟨str "B", str "R", false, [], []⟩)],
    ⟨[0], [(str "M", str "2")]⟩) := by decide +kernel

/-- The number of tags in the root tag. -/
def rootTagCount (s : Bytes) : Nat :=
  match readFrom s with
  | .ok (some doc, _) => doc.tags.length
  | _ => 0

/-- The document is read, and has a root tag with five tags. -/
example : rootTagCount mixedDoc = 5 := by decide +kernel

end Props

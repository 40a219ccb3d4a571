import Verif.Rbxlx.XmlLayout
import Verif.Props.XmlTreeExamples
/-!
# C96: the layout of an XML file
-/
namespace Props
open Go Rbxfile Rbxlx Spec

variable {ρ : Type} [DecidableEq ρ]

/-- C96: the file written for a tree is a document of which the root element has the name and attributes that Roblox expects,
and contains, in this order, the metadata, the external elements, an element for each instance, nested like the tree, and the
shared strings; the properties of an instance come first, ordered by name, each in an element that is named after its type. -/
theorem C96_layout (P : Params) (L : Layout) (h : Heap ρ) (root : Root ρ) (l : Map ρ (Inst ρ))
    (hw : XmlWritable P L h root l) (hm : root.metadata.Ok) (b : Bytes) (h1 : Heap ρ) (hb : encode P L h root = .ok (b, h1)) :
    ∃ (doc : Tag) (metas externals items shared : List Tag), readFrom b = .ok (some doc, L.suffix) ∧
      XmlFile P.hash P.excludeReferent P.excludeExternal P.excludeMetadata root.metadata h1 root.instances l doc
        metas externals items shared :=
  encode_layout hw.legible hm hb

/-- The example meets the hypotheses. -/
example : ∃ b h1, encode exP {} xHeap xRoot = .ok (b, h1) ∧
    ∃ (doc : Tag) (metas externals items shared : List Tag), readFrom b = .ok (some doc, []) ∧
      XmlFile exHash false false false xRoot.metadata h1 [7] xList doc metas externals items shared := by
  obtain ⟨b, h1, hb⟩ := xEncoded
  exact ⟨b, h1, hb, C96_layout exP {} xHeap xRoot xList xWritable xEncodable.metadata b h1 hb⟩

/-- A tree of two instances, one of which refers to the other. -/
def pairHeap : Heap Nat :=
  [(0, { className := str "A", reference := str "r", children := [1], properties := [(str "X", .reference (some 1)), (str "B", .vector2 ⟨0, 0⟩)] }),
   (1, { className := str "C", properties := [(str "S", .sharedString [1])] })]

mutual
/-- The names of elements, the values of attributes and the texts. -/
def outline : List Tag → List (Bytes × List Bytes × Bytes)
  | [] => []
  | t :: rest => outlineTag t ++ outline rest
/-- The same for an element. -/
def outlineTag : Tag → List (Bytes × List Bytes × Bytes)
  | ⟨h, ts⟩ => (h.startName, h.attr.map Prod.snd, h.text) :: outline ts
end

/-- The outline of the file of a tree. -/
def outlineOf (r : Res (Bytes × Heap Nat)) : Option (List (Bytes × List Bytes × Bytes)) :=
  match r with
  | .ok (b, _) => match readFrom b with
    | .ok (some ⟨_, ts⟩, _) => some (outline ts)
    | _ => none
  | _ => none

/-- The elements of a file: the properties are ordered, the reference is the attribute of the child. -/
example : outlineOf (encode exP {} pairHeap { instances := [0], metadata := [(str "k", str "v")] }) = some
    [(str "Meta", [str "k"], str "v"), (str "External", [], str "null"), (str "External", [], str "nil"),
     (str "Item", [str "A", str "r"], []), (str "Properties", [], []), (str "Vector2", [str "B"], []), (str "X", [], str "0"),
     (str "Y", [], str "0"), (str "Ref", [str "X"], str "RBX00000000000040008000000000000000"),
     (str "Item", [str "C", str "RBX00000000000040008000000000000000"], []), (str "Properties", [], []),
     (str "SharedString", [str "S"], str "AQAAAAAAAAAAAAAAAAAAAA=="), (str "SharedStrings", [], []),
     (str "SharedString", [str "AQAAAAAAAAAAAAAAAAAAAA=="], str "AQ==")] := by decide +kernel

end Props

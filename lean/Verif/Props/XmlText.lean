import Verif.Rbxlx.XmlText
import Verif.Props.XmlLayout
/-!
# C101: the text of an XML file
-/
namespace Props
open Go Rbxfile Rbxlx Spec

variable {ρ : Type} [DecidableEq ρ]

/-- C101: the file written for the instances listed by `l` is exactly the text of the specification: the prefix; the root element
with the elements for the metadata, the two External elements, the elements for the instances and for the shared strings; the
suffix. Each is written in its own line, indented by its depth, with a tab if nothing else is given. `h1` are the instances after
encoding, which have got references. -/
theorem C101_text (P : Params) (L : Layout) (h : Heap ρ) (root : Root ρ) (l : Map ρ (Inst ρ)) (hl : Forest h root.instances l)
    (hg : ∃ rand, P.gen = genOf rand) (hp : ∀ x ∈ l, x.2.properties.Ok) (hm : root.metadata.Ok) (b : Bytes) (h1 : Heap ρ)
    (hb : encode P L h root = .ok (b, h1)) :
    ∃ metas items shared, (if P.excludeMetadata then metas = [] else XmlText.Metadata root.metadata metas) ∧
      XmlText.Items P.F P.hash P.excludeReferent h1 root.instances items ∧ XmlText.Shared P.hash l shared ∧
      b = XmlText.document L.pre (if L.indent = [] ∧ L.noDefaultIndent = false then str "\t" else L.indent) L.suffix L.excludeRoot
        (str "roblox") XmlText.rootAttrs (metas ++ (if P.excludeExternal then [] else
          [.text (str "External") [] (str "null"), .text (str "External") [] (str "nil")]) ++ items ++ shared) := by
  obtain ⟨rand, hr⟩ := hg
  exact encode_text hl hp (by rw [hr]; exact genOf_nonempty rand) hm hb

/-- The example meets the hypotheses. -/
example : ∃ b h1, encode exP {} xHeap xRoot = .ok (b, h1) ∧ ∃ metas items shared, XmlText.Metadata xRoot.metadata metas ∧
      XmlText.Items goFloat exHash false h1 [7] items ∧ XmlText.Shared exHash xList shared ∧
      b = XmlText.document [] (str "\t") [] false (str "roblox") XmlText.rootAttrs (metas ++
        [.text (str "External") [] (str "null"), .text (str "External") [] (str "nil")] ++ items ++ shared) := by
  obtain ⟨b, h1, hb⟩ := xEncoded
  obtain ⟨rand, -, hr⟩ := xWritable.go.random
  exact ⟨b, h1, hb, C101_text exP {} xHeap xRoot xList xWritable.trees.1 ⟨rand, hr⟩ xWritable.properties xEncodable.metadata b h1 hb⟩

/-- An instance with a child: a number with an exponent, a Content, a text that begins with a space, a BinaryString, a UniqueId. -/
def textHeap : Heap Nat :=
  [(0, { className := str "A", reference := str "r", children := [1], properties :=
      [(str "c", .content (str "u&v")), (str "b", .float 0x501502f9#32), (str "a", .string (str " x y"))] }),
   (1, { className := str "B", reference := str "s", properties :=
      [(str "i", .uniqueId 1 2 0xabc), (str "s", .binaryString [1]), (str "p", .udim ⟨0, -3⟩)] })]

/-- The digits of the two numbers. -/
def floatsOf : FloatText := { goFloat with format32 := fun _ f => if f = 0 then str "0" else str "1e+10" }

/-- The text that was written. -/
def textOf (r : Res (Bytes × Heap Nat)) : Option Bytes :=
  match r with
  | .ok (b, _) => some b
  | _ => none

/-- Its file, literally; the digits of the number are those that Go's library yields. -/
example : textOf (encode { exP with F := floatsOf } { indent := str "  ", suffix := str "\n" } textHeap ⟨[0], [(str "k", str "\"v\"")]⟩) = some ((str "\n").intercalate [
    str "<roblox xmlns:xmime=\"http://www.w3.org/2005/05/xmlmime\" xmlns:xsi=\"http://www.w3.org/2001/XMLSchema-instance\" xsi:noNamespaceSchemaLocation=\"http://www.roblox.com/roblox.xsd\" version=\"4\">",
    str "  <Meta name=\"k\">&quot;v&quot;</Meta>",
    str "  <External>null</External>",
    str "  <External>nil</External>",
    str "  <Item class=\"A\" referent=\"r\">",
    str "    <Properties>",
    str "      <string name=\"a\">&#32;x y</string>",
    str "      <float name=\"b\">1e+010</float>",
    str "      <Content name=\"c\"><url>u&amp;v</url></Content>",
    str "    </Properties>",
    str "    <Item class=\"B\" referent=\"s\">",
    str "      <Properties>",
    str "        <UniqueId name=\"i\">00000000000000010000000200000abc</UniqueId>",
    str "        <UDim name=\"p\">",
    str "          <S>0</S>",
    str "          <O>-3</O>",
    str "        </UDim>",
    str "        <BinaryString name=\"s\">AQ==</BinaryString>",
    str "      </Properties>",
    str "    </Item>",
    str "  </Item>",
    str "</roblox>",
    str ""]) := by decide +kernel

/-- Without the root element and the External elements. -/
example : textOf (encode { exP with F := floatsOf, excludeExternal := true, excludeReferent := true }
      { excludeRoot := true, noDefaultIndent := true, pre := str "#" } textHeap ⟨[1], [(str "k", [])]⟩) = some ((str "\n").intercalate [
    str "#<Meta name=\"k\"></Meta>",
    str "#<Item class=\"B\">",
    str "#<Properties>",
    str "#<UniqueId name=\"i\">00000000000000010000000200000abc</UniqueId>",
    str "#<UDim name=\"p\">",
    str "#<S>0</S>",
    str "#<O>-3</O>",
    str "#</UDim>",
    str "#<BinaryString name=\"s\">AQ==</BinaryString>",
    str "#</Properties>",
    str "#</Item>"]) := by decide +kernel

end Props

import Verif.Spec.DecodeXml
import Verif.Spec.XmlProperty
/-!
# Specification vocabulary: the XML documents that cannot be decoded
-/
namespace Spec
open Go Rbxfile Rbxlx

/-- The tag of a property of one of the instances that the tags `ts` describe: it is in the first Properties tag of an
Item with a class, which may be inside another such Item. -/
inductive PropertyIn : List Tag → Tag → Prop
  | own {ts : List Tag} {i t : Tag} : i ∈ ts → i.head.startName = str "Item" →
      attrValue i.head.attr (str "class") ≠ none → t ∈ propertyTags i.tags → PropertyIn ts t
  | child {ts : List Tag} {i t : Tag} : i ∈ ts → i.head.startName = str "Item" →
      attrValue i.head.attr (str "class") ≠ none → PropertyIn i.tags t → PropertyIn ts t

/-- A font with a weight that cannot be represented, and no family before the weight. (If there is a style before the
weight, it is a valid one.) -/
def BadFont (t : Tag) : Prop := ∃ before w after, t.tags = before ++ w :: after ∧
  w.head.startName = str "Weight" ∧ Overflows 16 (tagContent w) ∧
  firstTag before "Weight" = none ∧ firstTag before "Family" = none ∧
  ∀ s, firstTag before "Style" = some s → ∃ st, SaysStyle (tagContent s) st

/-- The tag stands for a property, and it is such a font. -/
def CrashingFont (t : Tag) : Prop :=
  attrValue t.head.attr (str "name") ≠ none ∧ TypeTag t.head.startName .font ∧ BadFont t

end Spec

import Verif.Spec.XmlProperty
import Verif.Spec.DecodeXml
/-!
# What does not count in an XML document
-/
namespace Spec
open Go Rbxfile Rbxlx

mutual
/-- The tag without what does not count in a value: attributes, the name in the end tag, and the marks of comments, of empty tags and of
tags that are not indented. -/
def bare : Tag → Tag
  | ⟨h, ts⟩ => ⟨{ startName := h.startName, cdata := h.cdata, text := h.text }, bares ts⟩
/-- Each of the tags. -/
def bares : List Tag → List Tag
  | [] => []
  | t :: ts => bare t :: bares ts
end

/-- The tag of a property does not count: it has no `name`, or it is named neither after a type nor `Optional…`. -/
def NoProperty (t : Tag) : Prop :=
  attrValue t.head.attr (str "name") = none ∨
    ((∀ ty, ¬ TypeTag t.head.startName ty) ∧ ¬ str "optional" <+: t.head.startName.map lowerLetter)

/-- Two lists of tags of properties, of which some do not count, and the others have the same names and contents. -/
inductive SameProperties : List Tag → List Tag → Prop
  | nil : SameProperties [] []
  | left {t ts ts'} : NoProperty t → SameProperties ts ts' → SameProperties (t :: ts) ts'
  | right {t ts ts'} : NoProperty t → SameProperties ts ts' → SameProperties ts (t :: ts')
  | both {t t' ts ts'} : attrValue t.head.attr (str "name") = attrValue t'.head.attr (str "name") → bare t = bare t' →
      SameProperties ts ts' → SameProperties (t :: ts) (t' :: ts')

/-- A tag in an Item (`inItem`) or in the root, after a Properties tag (`after`) or not, that does not count: it is no Item and no
Properties tag; or an Item without a class; or a Properties tag in the root or after another one. -/
def NoItem (inItem after : Bool) (t : Tag) : Prop :=
  (t.head.startName ≠ str "Item" ∧ t.head.startName ≠ str "Properties") ∨
  (t.head.startName = str "Item" ∧ attrValue t.head.attr (str "class") = none) ∨
  (t.head.startName = str "Properties" ∧ (inItem = false ∨ after = true))

/-- Two lists of tags in Items, or in roots, of which some do not count; the Items among the others have the same class and referent, and
again such tags, and the Properties have the same properties. -/
inductive SameItems : Bool → Bool → List Tag → List Tag → Prop
  | nil {inItem after} : SameItems inItem after [] []
  | left {inItem after t ts ts'} : NoItem inItem after t → SameItems inItem after ts ts' → SameItems inItem after (t :: ts) ts'
  | right {inItem after t ts ts'} : NoItem inItem after t → SameItems inItem after ts ts' → SameItems inItem after ts (t :: ts')
  | item {inItem after h h' sub sub' ts ts'} : h.startName = str "Item" → h'.startName = str "Item" →
      attrValue h.attr (str "class") = attrValue h'.attr (str "class") →
      (attrValue h.attr (str "referent")).getD [] = (attrValue h'.attr (str "referent")).getD [] →
      SameItems true false sub sub' → SameItems inItem after ts ts' → SameItems inItem after (⟨h, sub⟩ :: ts) (⟨h', sub'⟩ :: ts')
  | properties {h h' sub sub' ts ts'} : h.startName = str "Properties" → h'.startName = str "Properties" → SameProperties sub sub' →
      SameItems true true ts ts' → SameItems true false (⟨h, sub⟩ :: ts) (⟨h', sub'⟩ :: ts')

/-- The shared strings of the tags in the root: their hashes and contents, in Base64. -/
def sharedPairs (tags : List Tag) : List (Bytes × Bytes) :=
  (tags.filter fun t => t.head.startName = str "SharedStrings").flatMap fun t => t.tags.filterMap fun s =>
    if s.head.startName = str "SharedString" then (attrValue s.head.attr (str "md5")).map fun k => (k, tagContent s) else none

/-- Two documents that are the same but for what does not count. -/
structure SameDocument (doc doc' : Tag) : Prop where
  items : SameItems false false doc.tags doc'.tags
  metadata : metaPairs doc.tags = metaPairs doc'.tags
  shared : sharedPairs doc.tags = sharedPairs doc'.tags

end Spec

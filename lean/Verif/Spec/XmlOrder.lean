import Verif.Spec.XmlIgnored
/-!
# The order of what counts in an XML document
-/
namespace Spec
open Go Rbxfile Rbxlx

/-- The property tags of the name `n`. -/
def propertiesNamed (n : Bytes) (ts : List Tag) : List Tag := ts.filter fun t => attrValue t.head.attr (str "name") = some n

/-- The tag stands for an instance: it is an Item with a class. -/
def IsItem (t : Tag) : Prop := t.head.startName = str "Item" ∧ attrValue t.head.attr (str "class") ≠ none

/-- Two lists of tags in which the Items with a class are in the same order, and have the same class, referent, such Items again, and the
same properties in any order: for each name, the same contents in the same order. -/
inductive Rearranged : List Tag → List Tag → Prop
  | nil : Rearranged [] []
  | left {t ts ts'} : ¬ IsItem t → Rearranged ts ts' → Rearranged (t :: ts) ts'
  | right {t ts ts'} : ¬ IsItem t → Rearranged ts ts' → Rearranged ts (t :: ts')
  | item {t t' ts ts'} : t.head.startName = str "Item" → t'.head.startName = str "Item" →
      attrValue t.head.attr (str "class") = attrValue t'.head.attr (str "class") → attrValue t.head.attr (str "class") ≠ none →
      (attrValue t.head.attr (str "referent")).getD [] = (attrValue t'.head.attr (str "referent")).getD [] →
      (∀ n, (propertiesNamed n (propertyTags t.tags)).map bare = (propertiesNamed n (propertyTags t'.tags)).map bare) →
      Rearranged t.tags t'.tags → Rearranged ts ts' → Rearranged (t :: ts) (t' :: ts')

/-- Two documents with the same instances and properties; the same values for each name of a Meta tag, in the same order; and the same
shared strings. -/
structure RearrangedDocument (doc doc' : Tag) : Prop where
  items : Rearranged doc.tags doc'.tags
  metadata : ∀ k, (metaPairs doc.tags).filter (fun x => x.1 = k) = (metaPairs doc'.tags).filter (fun x => x.1 = k)
  shared : sharedPairs doc.tags = sharedPairs doc'.tags

end Spec

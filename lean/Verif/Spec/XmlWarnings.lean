import Verif.Spec.DecodeXml
import Verif.Rbxlx.Warnings
import Verif.Spec.XmlProperty
/-!
# Specification vocabulary: what is lost when a document is decoded
-/
namespace Spec
open Go Rbxfile Rbxlx

/-- The tag has a class. -/
def hasClass (t : Tag) : Bool := (attrValue t.head.attr (str "class")).isSome

mutual
/-- All Item tags among the tags, and within such tags. -/
def allItems : List Tag → List Tag
  | [] => []
  | t :: ts => itemsOf t ++ allItems ts
/-- The tag, if it is an Item, with all Item tags in it. -/
def itemsOf : Tag → List Tag
  | ⟨h, ts⟩ => if h.startName = str "Item" then ⟨h, ts⟩ :: allItems ts else []
end

mutual
/-- The Item tags among the tags and within Item tags that have a class. -/
def metItems : List Tag → List Tag
  | [] => []
  | t :: ts => metOf t ++ metItems ts
/-- The tag, if it is an Item, with the Item tags in it, if it has a class. -/
def metOf : Tag → List Tag
  | ⟨h, ts⟩ => if h.startName = str "Item" then
      ⟨h, ts⟩ :: (if (attrValue h.attr (str "class")).isSome then metItems ts else []) else []
end

/-- The tag of a Content has binary data: it has no content of its own, and its first subtag is `binary`. -/
def binaryContent (t : Tag) : Bool :=
  decide (tagContent t = []) && t.tags.head?.any fun u => decide (u.head.startName = str "binary")

/-- The number of parts of a Font that have binary data. -/
def binaryParts (t : Tag) : Nat :=
  (if (firstTag t.tags "Family").any binaryContent then 1 else 0) +
  (if (firstTag t.tags "CachedFaceId").any binaryContent then 1 else 0)

/-! ## Writing a document -/

/-- The name of a tag or an attribute is well formed: it is not empty, and consists of printable ASCII bytes other than a space and
`>`, other than `=` in the name of an attribute, and other than `;` in the name of an entity. -/
def GoodWord (t : NameType) (n : Bytes) : Prop := n ≠ [] ∧ ∀ b ∈ n, 33 ≤ b.toNat ∧ b.toNat ≤ 126 ∧ b ≠ 62#8 ∧
  (t = .attr → b ≠ 61#8) ∧ (t = .entity → b ≠ 59#8)

instance (t : NameType) (n : Bytes) : Decidable (GoodWord t n) := by unfold GoodWord; infer_instance

/-- A tag that cannot be written: it is no comment, and its name is not a name. -/
def Unwritable (t : Tag) : Prop := t.head.comment = false ∧ ¬ GoodWord .tag t.head.startName

instance (t : Tag) : Decidable (Unwritable t) := by unfold Unwritable; infer_instance

/-- The head of a tag with only the attributes that have names, and with the end name only if it is a name. -/
def cleanHead (h : Head) : Head :=
  { h with attr := h.attr.filter fun a => decide (GoodWord .attr a.1)
           endName := if GoodWord .tag h.endName then h.endName else [] }

mutual
/-- The tags without those that cannot be written, each cleaned. -/
def cleanTags : List Tag → List Tag
  | [] => []
  | t :: ts => (if Unwritable t then [] else [cleanTag t]) ++ cleanTags ts
/-- The tag with clean attributes and clean tags in it. Nothing is written of the attributes and tags of a comment, and of the tags
of an empty tag. -/
def cleanTag : Tag → Tag
  | ⟨h, ts⟩ => if h.comment then ⟨h, ts⟩ else ⟨cleanHead h, if h.empty then ts else cleanTags ts⟩
end

/-- The root tag, cleaned. If it is excluded, only the tags in it are written. -/
def cleanRoot (exclude : Bool) : Tag → Tag
  | ⟨h, ts⟩ => if h.comment then ⟨h, ts⟩ else if exclude then ⟨h, cleanTags ts⟩ else cleanTag ⟨h, ts⟩

end Spec

import Verif.Rbxlx.Document
import Verif.Spec.Xml
/-!
# Specification vocabulary: XML documents
-/
namespace Spec
open Go Rbxlx

/-- A name consists of printable ASCII characters other than `>` and the given one, does not begin with
one of the given characters, and is not empty. -/
structure XmlName (notIn : List Nat) (notFirst : List Nat) (n : Bytes) : Prop where
  nonempty : n ≠ []
  bytes : ∀ c ∈ n, 33 ≤ c.toNat ∧ c.toNat ≤ 126 ∧ c.toNat ≠ 62 ∧ c.toNat ∉ notIn
  first : ∀ c t, n = c :: t → c.toNat ∉ notFirst

/-- A tag name: it does not begin with `/` or `!`. -/
abbrev TagName := XmlName [] [47, 33]
/-- A name in an end tag. -/
abbrev EndName := XmlName [] []
/-- An attribute name: it does not contain `=` or begin with `/`. -/
abbrev AttrName := XmlName [61] [47]

mutual
/-- The tags without what is not content: the name in the end tag and the request not to indent. -/
def content : List Tag → List Tag
  | [] => []
  | t :: rest => contentOf t :: content rest
/-- The tag without what is not content. -/
def contentOf : Tag → Tag
  | ⟨h, ts⟩ => ⟨{ h with endName := [], noIndent := false }, content ts⟩
end

/-- The fields of a tag that can be written and read back without loss. -/
structure PlainHead (h : Head) (hasTags : Bool) : Prop where
  noComment : h.comment = false
  name : TagName h.startName
  attrNames : ∀ a ∈ h.attr, AttrName a.1
  attrValues : ∀ a ∈ h.attr, 13#8 ∉ a.2
  /-- an empty tag has an attribute and no content -/
  empty : h.empty = true → h.attr ≠ [] ∧ h.cdata = none ∧ h.text = [] ∧ hasTags = false
  cdata : ∀ c, h.cdata = some c → 13#8 ∉ c ∧ ¬ [93#8, 93#8, 62#8] <:+: c
  /-- carriage returns only occur in leading whitespace -/
  text : ∀ lead t, h.text = lead ++ t → (∃ c u, t = c :: u ∧ ¬ XmlSpace c) → 13#8 ∉ t

mutual
/-- All tags can be written and read back without loss. -/
def Plain : List Tag → Prop
  | [] => True
  | t :: rest => PlainTag t ∧ Plain rest
/-- The tag and all tags within it can be written and read back without loss. -/
def PlainTag : Tag → Prop
  | ⟨h, ts⟩ => PlainHead h (!ts.isEmpty) ∧ Plain ts
end

end Spec

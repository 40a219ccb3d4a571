import Verif.Spec.Xml
import Verif.Rbxlx.Document
/-!
# Specification vocabulary: the grammar of XML documents

The XML files that are accepted, as concrete syntax: what is written where (`source`), which combinations are
possible (`ok`), and what it means (`meaning`). The grammar is that of the format, not of the parser: a document
is whitespace, a root node and a suffix; a node is a comment or an element; an element has a start tag, possibly a
CDATA section, text, nodes, and an end tag. Where a piece of syntax is only recognised if something else does not
follow, `ok` says so. Start tags that are not well-formed are part of the syntax: the elements they begin are read
over and dropped.
-/
namespace Spec
open Go Rbxlx

/-- All bytes are whitespace. -/
def Blank (s : Bytes) : Prop := ∀ b ∈ s, XmlSpace b

/-- A byte that may occur in the name of a tag: `!` to `~` except `>`. -/
def TagByte (b : Byte) : Prop := 33 ≤ b.toNat ∧ b.toNat ≤ 126 ∧ b.toNat ≠ 62
/-- A byte that may occur in the name of an attribute: also not `=`. -/
def AttrByte (b : Byte) : Prop := TagByte b ∧ b.toNat ≠ 61
/-- A byte that may occur in the name of an entity: also not `;`. -/
def RefByte (b : Byte) : Prop := TagByte b ∧ b.toNat ≠ 59

/-! ## Text -/

/-- The named entities. -/
inductive NamedRef where
  | lt | gt | amp | apos | quot
  deriving DecidableEq, Repr

/-- The name of a named entity. -/
def NamedRef.name : NamedRef → Bytes
  | .lt => str "lt" | .gt => str "gt" | .amp => str "amp" | .apos => str "apos" | .quot => str "quot"

/-- The byte that a named entity stands for: one of `<>&'"`. -/
def NamedRef.char : NamedRef → Byte
  | .lt => 60#8 | .gt => 62#8 | .amp => 38#8 | .apos => 39#8 | .quot => 34#8

/-- The value of a decimal or hexadecimal digit; hexadecimal digits may be in either case. -/
def digitIn (hex : Bool) (b : Byte) : Option Nat :=
  if 48 ≤ b.toNat ∧ b.toNat ≤ 57 then some (b.toNat - 48)
  else if hex = true ∧ 97 ≤ b.toNat ∧ b.toNat ≤ 102 then some (10 + (b.toNat - 97))
  else if hex = true ∧ 65 ≤ b.toNat ∧ b.toNat ≤ 70 then some (10 + (b.toNat - 65))
  else none

/-- The byte is a digit. -/
def IsDigit (hex : Bool) (b : Byte) : Prop := digitIn hex b ≠ none

/-- The number written by digits, the most significant first. -/
def numberOf (hex : Bool) : Bytes → Nat
  | [] => 0
  | d :: ds => ((digitIn hex d).getD 0) * (if hex then 16 else 10) ^ ds.length + numberOf hex ds

/-- A piece of text. -/
inductive Piece where
  /-- a byte that stands for itself -/
  | byte (b : Byte)
  /-- a carriage return on its own -/
  | cr
  /-- a carriage return and a line feed -/
  | crlf
  /-- a named entity -/
  | named (e : NamedRef)
  /-- a numeric entity, decimal or hexadecimal -/
  | number (hex : Bool) (digits : Bytes)
  /-- what looks like a numeric entity but has no semicolon, no digits, or too large a number -/
  | keptNumber (hex : Bool) (digits : Bytes) (semicolon : Bool)
  /-- what looks like a named entity but has no semicolon or another name; it may be just an ampersand -/
  | keptName (name : Bytes) (semicolon : Bool)
  deriving DecidableEq, Repr

/-- `&#` or `&#x`. -/
def numberLead (hex : Bool) : Bytes := if hex then str "&#x" else str "&#"
/-- `;` or nothing. -/
def semi (b : Bool) : Bytes := if b then str ";" else []

/-- How a piece of text is written. -/
def Piece.source : Piece → Bytes
  | .byte b => [b]
  | .cr => [13#8]
  | .crlf => [13#8, 10#8]
  | .named e => str "&" ++ e.name ++ str ";"
  | .number hex ds => numberLead hex ++ ds ++ str ";"
  | .keptNumber hex ds s => numberLead hex ++ ds ++ semi s
  | .keptName n s => str "&" ++ n ++ semi s

/-- What a piece of text means: line ends become line feeds, entities the byte they stand for, and anything else
stays as it is. -/
def Piece.meaning : Piece → Bytes
  | .byte b => [b]
  | .cr => [10#8]
  | .crlf => [10#8]
  | .named e => [e.char]
  | .number hex ds => [BitVec.ofNat 8 (numberOf hex ds)]
  | .keptNumber hex ds s => numberLead hex ++ ds ++ semi s
  | .keptName n s => str "&" ++ n ++ semi s

/-- The piece can be written in text that ends with the byte `stop`, when `next` is the next byte. -/
def Piece.ok (stop next : Byte) : Piece → Prop
  | .byte b => b ≠ 38#8 ∧ b ≠ 13#8 ∧ b ≠ stop
  | .cr => next ≠ 10#8
  | .crlf => True
  | .named _ => True
  | .number hex ds => ds ≠ [] ∧ (∀ d ∈ ds, IsDigit hex d) ∧ numberOf hex ds ≤ 255
  | .keptNumber hex ds s =>
    (∀ d ∈ ds, IsDigit hex d) ∧
    (s = true → ds = [] ∨ 255 < numberOf hex ds) ∧
    (s = false → ¬ IsDigit hex next ∧ next ≠ 59#8) ∧
    (s = false → hex = false → ds = [] → next ≠ 120#8)
  | .keptName n s =>
    (∀ b ∈ n, RefByte b) ∧
    (∀ t, n ≠ 35#8 :: t) ∧
    (s = true → ∀ e : NamedRef, n ≠ e.name) ∧
    (s = false → ¬ RefByte next ∧ next ≠ 59#8)

/-- How text is written. -/
def textSource (ps : List Piece) : Bytes := ps.flatMap Piece.source
/-- What text means. -/
def textMeaning (ps : List Piece) : Bytes := ps.flatMap Piece.meaning

/-- All pieces can be written, one after the other, before the byte `stop`. -/
def PiecesOk (stop : Byte) : List Piece → Prop
  | [] => True
  | p :: ps => p.ok stop ((textSource ps ++ [stop]).headD 0#8) ∧ PiecesOk stop ps

/-- The value of an attribute; it ends with a quote. -/
def ValueOk (ps : List Piece) : Prop := PiecesOk 34#8 ps

/-- The text of an element; it ends with `<`, does not begin with whitespace, and `]]>` is not written in it. -/
structure TextOk (ps : List Piece) : Prop where
  pieces : PiecesOk 60#8 ps
  start : ∀ b t, textSource ps = b :: t → ¬ XmlSpace b
  noEnd : ¬ [Piece.byte 93#8, .byte 93#8, .byte 62#8] <:+: ps

/-! ## Start tags -/

/-- An attribute: whitespace, a name, `=`, and a value in quotes. -/
structure AttrSyntax where
  before : Bytes
  name : Bytes
  beforeEq : Bytes
  afterEq : Bytes
  value : List Piece

/-- How an attribute is written. -/
def AttrSyntax.source (a : AttrSyntax) : Bytes :=
  a.before ++ a.name ++ a.beforeEq ++ str "=" ++ a.afterEq ++ str "\"" ++ textSource a.value ++ str "\""

/-- The name and the value of an attribute. -/
def AttrSyntax.meaning (a : AttrSyntax) : Bytes × Bytes := (a.name, textMeaning a.value)

/-- The name of an attribute: it does not begin with `/`. -/
structure AttrNameOk (n : Bytes) : Prop where
  nonempty : n ≠ []
  bytes : ∀ b ∈ n, AttrByte b
  first : ∀ t, n ≠ 47#8 :: t

/-- The attribute can be written. -/
structure AttrSyntax.Ok (a : AttrSyntax) : Prop where
  before : Blank a.before
  name : AttrNameOk a.name
  beforeEq : Blank a.beforeEq
  afterEq : Blank a.afterEq
  value : ValueOk a.value

/-- How a start tag ends, well-formed or not. -/
inductive Ending where
  /-- `>` -/
  | opened (ws : Bytes)
  /-- `/>` -/
  | closed (ws : Bytes)
  /-- `/` and something other than `>` -/
  | badSlash (ws : Bytes) (b : Byte) (junk : Bytes)
  /-- something that cannot be the name of an attribute -/
  | badName (ws : Bytes) (b : Byte) (junk : Bytes)
  /-- the name of an attribute and something other than `=`; if that is `>`, the tag goes on to the next `>` -/
  | badAttr (ws : Bytes) (name : Bytes) (ws2 : Bytes) (b : Byte) (junk : Bytes)

/-- How the end of a start tag is written. -/
def Ending.source : Ending → Bytes
  | .opened ws => ws ++ str ">"
  | .closed ws => ws ++ str "/>"
  | .badSlash ws b junk => ws ++ str "/" ++ b :: junk ++ str ">"
  | .badName ws b junk => ws ++ b :: junk ++ str ">"
  | .badAttr ws n ws2 b junk => ws ++ n ++ ws2 ++ b :: junk ++ str ">"

/-- The end of the start tag can be written. -/
def Ending.Ok : Ending → Prop
  | .opened ws => Blank ws
  | .closed ws => Blank ws
  | .badSlash ws b junk => Blank ws ∧ b ≠ 62#8 ∧ 62#8 ∉ junk
  | .badName ws b junk => Blank ws ∧ ¬ AttrByte b ∧ ¬ XmlSpace b ∧ b ≠ 62#8 ∧ 62#8 ∉ junk
  | .badAttr ws n ws2 b junk =>
    Blank ws ∧ AttrNameOk n ∧ Blank ws2 ∧ b ≠ 61#8 ∧ ¬ XmlSpace b ∧ (ws2 = [] → ¬ AttrByte b) ∧ 62#8 ∉ junk

/-- The start tag ends as it should. -/
def Ending.good : Ending → Bool
  | .opened _ => true
  | .closed _ => true
  | _ => false

/-- The element has no content and no end tag. -/
def Ending.isClosed : Ending → Bool
  | .closed _ => true
  | .badSlash _ _ _ => true
  | _ => false

/-- The attribute without a value that is counted as an attribute of a start tag that does not end as it should. -/
def Ending.extra : Ending → List (Bytes × Bytes)
  | .badName _ _ _ => [([], [])]
  | .badAttr _ n _ _ _ => [(n, [])]
  | _ => []

/-- A start tag: with a name, or something that is not a name. -/
inductive StartSyntax where
  | named (name : Bytes) (attrs : List AttrSyntax) (ending : Ending)
  | nameless (junk : Bytes)

/-- How attributes and the end of a start tag are written. -/
def attrsSource (as : List AttrSyntax) (e : Ending) : Bytes := as.flatMap AttrSyntax.source ++ e.source

/-- How a start tag is written. -/
def StartSyntax.source : StartSyntax → Bytes
  | .named n as e => str "<" ++ n ++ attrsSource as e
  | .nameless junk => str "<" ++ junk ++ str ">"

/-- The start tag can be written: the name is not mistaken for an end tag or a comment, and ends where the name of
a tag ends. -/
def StartSyntax.Ok : StartSyntax → Prop
  | .named n as e =>
    n ≠ [] ∧ (∀ b ∈ n, TagByte b) ∧ (∀ t, n ≠ 47#8 :: t) ∧ ¬ str "!--" <+: n ∧
    (∀ a ∈ as, a.Ok) ∧ e.Ok ∧ ¬ TagByte ((attrsSource as e).headD 0#8)
  | .nameless junk => 62#8 ∉ junk ∧ (∀ b t, junk = b :: t → ¬ TagByte b)

/-- The start tag is well-formed. -/
def StartSyntax.good : StartSyntax → Bool
  | .named _ _ e => e.good
  | .nameless _ => false

/-- The element has no content and no end tag. -/
def StartSyntax.isClosed : StartSyntax → Bool
  | .named _ _ e => e.isClosed
  | .nameless _ => false

/-- The name of the tag. -/
def StartSyntax.name : StartSyntax → Bytes
  | .named n _ _ => n
  | .nameless _ => []

/-- The attributes of the tag. -/
def StartSyntax.attrs : StartSyntax → List (Bytes × Bytes)
  | .named _ as e => as.map AttrSyntax.meaning ++ e.extra
  | .nameless _ => []

/-! ## Nodes -/

/-- What is between the start tag and the first node of an element: whitespace, possibly a CDATA section and more
whitespace, and text. -/
structure ContentSyntax where
  ws : Bytes
  cdata : Option (Bytes × Bytes)
  text : List Piece

/-- How it is written. -/
def ContentSyntax.source (c : ContentSyntax) : Bytes :=
  c.ws ++ (match c.cdata with
    | none => []
    | some (t, ws) => str "<![CDATA[" ++ t ++ str "]]>" ++ ws) ++ textSource c.text

/-- It can be written: a CDATA section ends with the first `]]>`. -/
structure ContentSyntax.Ok (c : ContentSyntax) : Prop where
  ws : Blank c.ws
  cdata : ∀ t ws, c.cdata = some (t, ws) → ¬ str "]]>" <:+: t ∧ Blank ws
  text : TextOk c.text

mutual
/-- A node: a comment, an element without content, or an element with content and an end tag. -/
inductive Node where
  | comment (text : Bytes)
  | leaf (start : StartSyntax)
  | elem (start : StartSyntax) (content : ContentSyntax) (kids : Nodes) (endName endWs : Bytes)
/-- The nodes in an element, each with the whitespace after it. -/
inductive Nodes where
  | nil
  | cons (node : Node) (ws : Bytes) (rest : Nodes)
end

/-- The nodes begin with an element whose name begins like a CDATA section. -/
def Nodes.likeCData : Nodes → Prop
  | .cons (.leaf s) _ _ => str "![CDATA[" <+: s.name
  | .cons (.elem s _ _ _ _) _ _ => str "![CDATA[" <+: s.name
  | _ => False

mutual
/-- How a node is written. -/
def Node.source : Node → Bytes
  | .comment t => str "<!--" ++ t ++ str "-->"
  | .leaf s => s.source
  | .elem s c kids n ws => s.source ++ c.source ++ kids.source ++ str "</" ++ n ++ ws ++ str ">"
/-- How nodes are written. -/
def Nodes.source : Nodes → Bytes
  | .nil => []
  | .cons n ws rest => n.source ++ ws ++ rest.source
end

mutual
/-- A node can be written: a comment ends with the first `-->`, and the first element in another one is not mistaken
for a CDATA section. The name in an end tag need not be the name in the start tag. -/
def Node.Ok : Node → Prop
  | .comment t => ¬ str "-->" <:+: t
  | .leaf s => s.Ok ∧ s.isClosed = true
  | .elem s c kids n ws =>
    s.Ok ∧ s.isClosed = false ∧ c.Ok ∧ kids.Ok ∧
    (c.cdata = none → c.text = [] → ¬ kids.likeCData) ∧
    n ≠ [] ∧ (∀ b ∈ n, TagByte b) ∧ Blank ws
/-- Nodes can be written. -/
def Nodes.Ok : Nodes → Prop
  | .nil => True
  | .cons n ws rest => n.Ok ∧ Blank ws ∧ rest.Ok
end

mutual
/-- What a node means: nothing if the start tag is not well-formed. -/
def Node.meaning : Node → Option Tag
  | .comment t => some ⟨{ comment := true, text := t }, []⟩
  | .leaf s =>
    if s.good then some ⟨{ startName := s.name, attr := s.attrs, empty := true }, []⟩ else none
  | .elem s c kids n _ =>
    if s.good then
      some ⟨{ startName := s.name, endName := n, attr := s.attrs,
              cdata := c.cdata.map (fun x => normNewlines x.1), text := textMeaning c.text }, kids.meaning⟩
    else none
/-- What nodes mean, in order. -/
def Nodes.meaning : Nodes → List Tag
  | .nil => []
  | .cons n _ rest => n.meaning.toList ++ rest.meaning
end

/-! ## Documents -/

/-- A version that is supported: a number from 4 to the largest 32-bit integer, possibly with a plus sign. -/
def VersionOk (v : Bytes) : Prop :=
  ∃ ds, (v = ds ∨ v = 43#8 :: ds) ∧ ds ≠ [] ∧ (∀ d ∈ ds, IsDigit false d) ∧
    4 ≤ numberOf false ds ∧ numberOf false ds < 2 ^ 31

/-- The start tag of the root is named `roblox`, and its first attribute named `version` is a supported version. -/
def StartSyntax.isRoot (s : StartSyntax) : Prop :=
  s.name = str "roblox" ∧
    ∃ before v after, s.attrs = before ++ (str "version", v) :: after ∧
      (∀ a ∈ before, a.1 ≠ str "version") ∧ VersionOk v

/-- The node may be the root of a document. -/
def Node.isRoot : Node → Prop
  | .comment _ => True
  | .leaf s => s.isRoot
  | .elem s _ _ _ _ => s.isRoot

end Spec

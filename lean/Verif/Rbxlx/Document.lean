import Verif.Go.Strconv
import Verif.Rbxfile.Names
/-!
# XML documents (rbxlx/document.go)

The reader is modelled as a function on the bytes that remain to be read; `ungetc` puts a byte back
in front of them. Reading past the end of the input ends in an error in every function that is
called for a tag (`d.err` is sticky: once it is set, `getc` fails, and each loop returns `d.err` or
`d.tagError()`, which is not nil inside a tag), so the model returns an error at once. Errors of the
underlying reader or writer, line numbers and warnings are not modelled here: the parser as it calls the reader, with
these, is in `Verif.Rbxlx.ReadIO`, and is shown to do the same in `Verif.Rbxlx.ReadSimDoc`; the writer is in
`Verif.Rbxlx.WriteTo`. The byte counts and the detection of `Prefix`, `Indent` and `NoIndent` when reading (which the codec does not use) are not
modelled at all.
-/
namespace Rbxlx
open Go Rbxfile

/-- The fields of `documentTag` (rbxlx/document.go:24-70) except `Tags`. `cdata = none` is the nil
slice. -/
structure Head where
  startName : Bytes := []
  endName : Bytes := []
  attr : List (Bytes × Bytes) := []
  empty : Bool := false
  comment : Bool := false
  cdata : Option Bytes := none
  text : Bytes := []
  noIndent : Bool := false
  deriving DecidableEq, Repr, Inhabited

/-- `documentTag` (rbxlx/document.go:24-70). -/
inductive Tag where
  | mk (head : Head) (tags : List Tag)
  deriving Repr, Inhabited

mutual
/-- Equality of tags is decidable. -/
def Tag.decEq : (a b : Tag) → Decidable (a = b)
  | ⟨h, ts⟩, ⟨h', ts'⟩ =>
    if e : h = h' then
      match Tag.decEqs ts ts' with
      | .isTrue e' => .isTrue (by rw [e, e'])
      | .isFalse e' => .isFalse (by intro x; exact e' (by cases x; rfl))
    else .isFalse (by intro x; exact e (by cases x; rfl))
/-- Equality of lists of tags is decidable. -/
def Tag.decEqs : (a b : List Tag) → Decidable (a = b)
  | [], [] => .isTrue rfl
  | [], _ :: _ => .isFalse (by simp)
  | _ :: _, [] => .isFalse (by simp)
  | t :: ts, t' :: ts' =>
    match Tag.decEq t t' with
    | .isTrue e =>
      match Tag.decEqs ts ts' with
      | .isTrue e' => .isTrue (by rw [e, e'])
      | .isFalse e' => .isFalse (by intro x; exact e' (by cases x; rfl))
    | .isFalse e => .isFalse (by intro x; exact e (by cases x; rfl))
end

instance : DecidableEq Tag := Tag.decEq

namespace Tag
/-- The fields of a tag. -/
def head : Tag → Head | mk h _ => h
/-- `Tags`. -/
def tags : Tag → List Tag | mk _ ts => ts
@[simp] theorem head_mk (h : Head) (ts : List Tag) : (mk h ts).head = h := rfl
@[simp] theorem tags_mk (h : Head) (ts : List Tag) : (mk h ts).tags = ts := rfl
end Tag

/-! ## Attributes -/

/-- `AttrValue` (rbxlx/document.go:74-81): the value of the first attribute of a name. -/
def attrValue (attr : List (Bytes × Bytes)) (name : Bytes) : Option Bytes :=
  match attr with
  | [] => none
  | a :: rest => if a.1 = name then some a.2 else attrValue rest name

/-- `SetAttrValue` (rbxlx/document.go:87-102) on the list of attributes. The assignment
`a.Value = value` is to a copy of the attribute and has no effect. -/
def setAttrValue (attr : List (Bytes × Bytes)) (name value : Bytes) : List (Bytes × Bytes) :=
  match attr.findIdx? (fun a => decide (a.1 = name)) with
  | some i => if value = [] then attr.eraseIdx i else attr
  | none => if value = [] then attr else attr ++ [(name, value)]

/-! ## Reading -/

/-- `isSpace` (rbxlx/document.go:647-654). -/
def isSpace (b : Byte) : Bool :=
  decide (b = 32#8) || decide (b = 13#8) || decide (b = 10#8) || decide (b = 9#8) || decide (b = 12#8)

/-- `space` and `readSpace` (rbxlx/document.go:617-645): what remains after leading whitespace. -/
def skipSpace (s : Bytes) : Bytes := s.dropWhile isSpace

/-- `nameTag`, `nameAttr`, `nameEntity` (rbxlx/document.go:920-924). -/
inductive NameType where
  | tag | attr | entity
  deriving DecidableEq, Repr

/-- `isNameByte` (rbxlx/document.go:926-939). -/
def isNameByte (t : NameType) (c : Byte) : Bool :=
  decide (33 ≤ c.toNat) && decide (c.toNat ≤ 126) && decide (c ≠ 62#8) &&
    match t with
    | .tag => true
    | .attr => decide (c ≠ 61#8)
    | .entity => decide (c ≠ 59#8)

/-- `readName` (rbxlx/document.go:896-918): the name (empty if there is none) and the rest. The end
of the input is an error. -/
def readName (t : NameType) (s : Bytes) : Res (Bytes × Bytes) :=
  match s.dropWhile (isNameByte t) with
  | [] => .err (.other "unexpected EOF")
  | b :: rest => .ok (s.takeWhile (isNameByte t), b :: rest)

/-- The value of a digit in base 10 or 16 (`strconv.ParseUint`). -/
def hexValue (c : Byte) : Nat :=
  if c.toNat ≤ 57 then c.toNat - 48 else if c.toNat ≤ 70 then c.toNat - 55 else c.toNat - 87

/-- The digits accepted in a numeric entity (rbxlx/document.go:800-802). -/
def isEntityDigit (hex : Bool) (b : Byte) : Bool :=
  (decide (48 ≤ b.toNat) && decide (b.toNat ≤ 57)) ||
    (hex && decide (97 ≤ b.toNat) && decide (b.toNat ≤ 102)) ||
    (hex && decide (65 ≤ b.toNat) && decide (b.toNat ≤ 70))

/-- `strconv.ParseUint(s, base, 64)` restricted to results up to 255 (rbxlx/document.go:817-823), for
a string of digits. -/
def entityNumber (hex : Bool) (ds : Bytes) : Option Byte :=
  if ds = [] then none
  else
    let n := ds.foldl (fun n c => (if hex then 16 else 10) * n + hexValue c) 0
    if n ≤ 255 then some (BitVec.ofNat 8 n) else none

/-- `entity` (rbxlx/document.go:717-723). -/
def entityNamed (name : Bytes) : Option Byte :=
  if name = str "lt" then some 60#8
  else if name = str "gt" then some 62#8
  else if name = str "amp" then some 38#8
  else if name = str "apos" then some 39#8
  else if name = str "quot" then some 34#8
  else none

/-- The digits of a numeric entity, from after `&#` or `&#x` (`lead`): what is appended to the text and
the rest (rbxlx/document.go:799-824). -/
def numericEntity (hex : Bool) (lead s : Bytes) : Res (Bytes × Bytes) :=
  let ds := s.takeWhile (isEntityDigit hex)
  match s.dropWhile (isEntityDigit hex) with
  | [] => .err (.other "unexpected EOF")
  | b :: rest =>
    if b = 59#8 then
      match entityNumber hex ds with
      | some c => .ok ([c], rest)
      | none => .ok (lead ++ ds ++ [59#8], rest)
    else .ok (lead ++ ds, b :: rest)

/-- An entity, from after `&` (rbxlx/document.go:769-859): what is appended to the text and the rest.
An entity that is not understood is kept as it is. -/
def readEntity (s : Bytes) : Res (Bytes × Bytes) :=
  match s with
  | [] => .err (.other "unexpected EOF")
  | 35#8 :: 120#8 :: s => numericEntity true [38#8, 35#8, 120#8] s
  | 35#8 :: s => numericEntity false [38#8, 35#8] s
  | s => do
    let (name, rest) ← readName .entity s
    match rest with
    | 59#8 :: rest =>
      match entityNamed name with
      | some c => .ok ([c], rest)
      | none => .ok (38#8 :: name ++ [59#8], rest)
    | rest => .ok (38#8 :: name, rest)

/-- How `text` is called: for the text of a tag, an attribute value in double quotes, or a CDATA
section. -/
inductive TextMode where
  | plain | quoted | cdata
  deriving DecidableEq, Repr

/-- `text` (rbxlx/document.go:729-879): `b0` and `b1` are the previous two bytes, `out` is the buffer;
the result is the text and the rest. The first argument bounds the number of steps; each step reads
at least one byte, so the length of the input and one more suffices. -/
def textLoop (mode : TextMode) : Nat → Byte → Byte → Bytes → Bytes → Res (Bytes × Bytes)
  | 0, _, _, _, _ => .err (.other "out of fuel")
  | _ + 1, _, _, _, [] => .err (.other "unexpected EOF")
  | fuel + 1, b0, b1, out, b :: s =>
    if b0 = 93#8 ∧ b1 = 93#8 ∧ b = 62#8 ∧ mode = .cdata then .ok (out.take (out.length - 2), s)
    else if b0 = 93#8 ∧ b1 = 93#8 ∧ b = 62#8 ∧ mode = .plain then .err (.other "unexpected ']]>'")
    else if b = 60#8 ∧ mode = .plain then .ok (out, b :: s)
    else if b = 34#8 ∧ mode = .quoted then .ok (out, s)
    else if b = 38#8 ∧ mode ≠ .cdata then
      match readEntity s with
      | .ok (x, rest) => textLoop mode fuel 0#8 0#8 (out ++ x) rest
      | .err e => .err e
      | .panic => .panic
    else if b = 13#8 then textLoop mode fuel b1 b (out ++ [10#8]) s
    else if b1 = 13#8 ∧ b = 10#8 then textLoop mode fuel b1 b out s
    else textLoop mode fuel b1 b (out ++ [b]) s

/-- `text` (rbxlx/document.go:729-879). -/
def readText (mode : TextMode) (s : Bytes) : Res (Bytes × Bytes) :=
  textLoop mode (s.length + 1) 0#8 0#8 [] s

/-- `decodeComment` (rbxlx/document.go:268-282): the text up to `-->` and the rest. -/
def readComment : Bytes → Res (Bytes × Bytes)
  | [] => .err (.other "unexpected EOF")
  | 45#8 :: 45#8 :: 62#8 :: rest => .ok ([], rest)
  | b :: s => do
    let (t, rest) ← readComment s
    .ok (b :: t, rest)

/-- `ignoreStartTag` (rbxlx/document.go:252-266): what remains after the next `>`. -/
def ignoreStartTag (s : Bytes) : Res Bytes :=
  match s.dropWhile (fun b => decide (b ≠ 62#8)) with
  | [] => .err (.other "unexpected EOF")
  | _ :: rest => .ok rest

/-- The result of `decodeStartTag` other than an error: 0, 1 and 2. -/
inductive StartState where
  | ignored | tag | comment
  deriving DecidableEq, Repr

/-- The loop over the attributes in `decodeStartTag` (rbxlx/document.go:316-362). The first argument
bounds the number of attributes. -/
def readAttrs : Nat → Head → Bytes → Res (StartState × Head × Bytes)
  | 0, _, _ => .err (.other "out of fuel")
  | fuel + 1, tag, s =>
    match skipSpace s with
    | [] => .err (.other "unexpected EOF")
    | 47#8 :: s =>
      match s with
      | [] => .err (.other "unexpected EOF")
      | 62#8 :: s => .ok (.tag, { tag with empty := true }, s)
      | _ :: s => do
        let s ← ignoreStartTag s
        .ok (.ignored, { tag with empty := true }, s)
    | 62#8 :: s => .ok (.tag, tag, s)
    | s => do
      let (name, s) ← readName .attr s
      if name = [] then
        let s ← ignoreStartTag s
        .ok (.ignored, { tag with attr := tag.attr ++ [([], [])] }, s)
      else
        match skipSpace s with
        | 61#8 :: s =>
          match skipSpace s with
          | 34#8 :: s => do
            let (value, s) ← readText .quoted s
            readAttrs fuel { tag with attr := tag.attr ++ [(name, value)] } s
          | _ => .err (.other "unquoted or missing attribute value in element")
        | _ :: s => do
          let s ← ignoreStartTag s
          .ok (.ignored, { tag with attr := tag.attr ++ [(name, [])] }, s)
        | [] => .err (.other "unexpected EOF")

/-- `decodeStartTag` (rbxlx/document.go:286-364). -/
def readStartTag (s : Bytes) : Res (StartState × Head × Bytes) :=
  match s with
  | [] => .err (.other "EOF")
  | 60#8 :: s =>
    match s with
    | [] => .err (.other "unexpected EOF")
    | 47#8 :: _ => .err (.other "unexpected end tag")
    | 33#8 :: 45#8 :: 45#8 :: s => do
      let (t, s) ← readComment s
      .ok (.comment, { comment := true, text := t }, s)
    | s => do
      let (name, s) ← readName .tag s
      if name = [] then
        let s ← ignoreStartTag s
        .ok (.ignored, {}, s)
      else readAttrs (s.length + 1) { startName := name } s
  | _ => .err (.other "expected start tag")

/-- `<![CDATA[` -/
def cdataOpen : Bytes := str "<![CDATA["

/-- `decodeCData` (rbxlx/document.go:366-390): the section, nil if there is none. -/
def readCData (s : Bytes) : Res (Option Bytes × Bytes) :=
  if cdataOpen.isPrefixOf s then do
    let (t, s) ← readText .cdata (s.drop cdataOpen.length)
    .ok (some t, s)
  else .ok (none, s)

/-- `decodeEndTag` (rbxlx/document.go:402-437), from after `</`: the name and the rest. -/
def readEndTag (s : Bytes) : Res (Bytes × Bytes) := do
  let (name, s) ← readName .tag s
  if name = [] then .err (.other "expected element name after </")
  else
    match skipSpace s with
    | 62#8 :: s => .ok (name, s)
    | _ => .err (.other "invalid characters in end tag")

/-- The requirements on the root tag (rbxlx/document.go:466-487). -/
def checkRoot (h : Head) : Res Unit :=
  if h.startName ≠ str "roblox" then .err (.other "no roblox tag")
  else
    match attrValue h.attr (str "version") with
    | none => .err (.other "version attribute not specified")
    | some v =>
      match parseInt 32 v with
      | (n, .none) => if n < 4 then .err (.other "schemaVersionLoading<4") else .ok ()
      | _ => .err (.other "no version number")

mutual
/-- `decodeTag` (rbxlx/document.go:439-601): the tag, nil if it is ignored, and the rest. The first
argument bounds the number of steps. -/
def readTag : Nat → Bool → Bytes → Res (Option Tag × Bytes)
  | 0, _, _ => .err (.other "out of fuel")
  | fuel + 1, root, s =>
    match readStartTag (if root then skipSpace s else s) with
    | .panic => .panic
    | .err e => .err e
    | .ok (.comment, h, s) => .ok (some ⟨h, []⟩, s)
    | .ok (state, h, s) =>
      match if root then checkRoot h else .ok () with
      | .panic => .panic
      | .err e => .err e
      | .ok () =>
        if h.empty then .ok (if state = .ignored then none else some ⟨h, []⟩, s)
        else
          match readCData (skipSpace s) with
          | .panic => .panic
          | .err e => .err e
          | .ok (c, s) =>
            match readText .plain (skipSpace s) with
            | .panic => .panic
            | .err e => .err e
            | .ok (t, s) =>
              match readTags fuel s with
              | .panic => .panic
              | .err e => .err e
              | .ok (ts, endName, s) =>
                .ok (if state = .ignored then none
                  else some ⟨{ h with cdata := c, text := t, endName := endName }, ts⟩, s)
/-- The loop over the tags within a tag up to the end tag (rbxlx/document.go:542-585). -/
def readTags : Nat → Bytes → Res (List Tag × Bytes × Bytes)
  | 0, _ => .err (.other "out of fuel")
  | fuel + 1, s =>
    match skipSpace s with
    | 60#8 :: 47#8 :: s =>
      match readEndTag s with
      | .panic => .panic
      | .err e => .err e
      | .ok (name, s) => .ok ([], name, s)
    | 60#8 :: s =>
      match readTag fuel false (60#8 :: s) with
      | .panic => .panic
      | .err e => .err e
      | .ok (t, s) =>
        match readTags fuel s with
        | .panic => .panic
        | .err e => .err e
        | .ok (ts, name, s) => .ok (t.toList ++ ts, name, s)
    | _ => .err (.other "expected tag")
end

/-- `ReadFrom` (rbxlx/document.go:942-978): the root tag, which may be nil, and the suffix. -/
def readFrom (s : Bytes) : Res (Option Tag × Bytes) := readTag (2 * s.length + 2) true s

/-! ## Writing -/

/-- `documentRoot` (rbxlx/document.go:171-213) as it is when writing. -/
structure Doc where
  pre : Bytes := []
  indent : Bytes := []
  suffix : Bytes := []
  excludeRoot : Bool := false
  root : Option Tag := none

/-- A numbered entity (rbxlx/document.go:1260-1267). -/
def numbered (b : Byte) : Bytes := [38#8, 35#8] ++ formatUint b.toNat ++ [59#8]

/-- The escaped form of a byte (rbxlx/document.go:1239-1267). -/
def escapeByte (b : Byte) : Bytes :=
  if b = 34#8 then str "&quot;"
  else if b = 39#8 then str "&apos;"
  else if b = 38#8 then str "&amp;"
  else if b = 60#8 then str "&lt;"
  else if b = 62#8 then str "&gt;"
  else if (32 ≤ b.toNat ∧ b.toNat ≤ 126) ∨ b = 10#8 ∨ b = 13#8 then [b]
  else numbered b

/-- `escapeString` (rbxlx/document.go:1223-1274): what is written. -/
def escapeString (lead : Bool) : Bytes → Bytes
  | [] => []
  | b :: s =>
    if lead && isSpace b then numbered b ++ escapeString true s
    else escapeByte b ++ escapeString false s

/-- `checkName` (rbxlx/document.go:1012-1022). -/
def checkName (t : NameType) (name : Bytes) : Bool :=
  decide (name ≠ []) && name.all (isNameByte t)

/-- `writeIndent` (rbxlx/document.go:1190-1210): what is written and the new depth. -/
def writeIndent (d : Doc) (delta : Int) (notag : Bool) (depth : Int) : Bytes × Int :=
  if d.pre = [] ∧ d.indent = [] then ([], depth)
  else
    let depth := if delta < 0 then depth - 1 else if 0 < delta then depth + 1 else depth
    (if notag then [] else 10#8 :: d.pre ++ (List.replicate depth.toNat d.indent).flatten, depth)

/-- The attributes as written in a start tag (rbxlx/document.go:1058-1069). -/
def writeAttrs : List (Bytes × Bytes) → Bytes
  | [] => []
  | (name, value) :: rest =>
    (if checkName .attr name then
      [32#8] ++ name ++ [61#8, 34#8] ++ escapeString false value ++ [34#8] else []) ++ writeAttrs rest

/-- The end name that is written (rbxlx/document.go:1042, 1050-1053, 1126-1130). -/
def writtenEnd (h : Head) : Bytes :=
  if h.endName = [] then h.startName
  else if checkName .tag h.endName then h.endName else h.startName

/-- `encodeCData` (rbxlx/document.go:990-1002). -/
def writeCData : Option Bytes → Bytes
  | none => []
  | some c => cdataOpen ++ c ++ str "]]>"

/-- `encodeTag` (rbxlx/document.go:1024-1139) without the loop over the sub-tags, which is given by
`kids` (from the depth, what is written and the new depth); `hasTags` tells whether there are
sub-tags. The result is what is written, the new depth, and whether the tag was written rather than
ignored. -/
def writeTag (d : Doc) (noTags noindent : Bool) (depth : Int) (h : Head) (hasTags : Bool)
    (kids : Int → Bytes × Int) : Bytes × Int × Bool :=
  if h.comment then (str "<!--" ++ escapeString true h.text ++ str "-->", depth, true)
  else if !noTags && !checkName .tag h.startName then ([], depth, false)
  else
    let start := 60#8 :: h.startName ++ writeAttrs h.attr
    if !noTags && h.empty then (start ++ [47#8, 62#8], depth, true)
    else
      let i := if !noindent && !h.noIndent && hasTags then
          (if noTags then writeIndent d 0 true depth else writeIndent d 1 false depth)
        else ([], depth)
      let k := kids i.2
      ((if noTags then [] else start ++ [62#8]) ++ writeCData h.cdata ++ i.1 ++ escapeString true h.text ++
        k.1 ++ (if noTags then [] else [60#8, 47#8] ++ writtenEnd h ++ [62#8]), k.2, true)

/-- The indentation after a sub-tag (rbxlx/document.go:1110-1120): `w` is the result for the sub-tag, `last`
tells whether it is the last one. -/
def writeAfter (d : Doc) (noTags ni last : Bool) (w : Bytes × Int × Bool) : Bytes × Int :=
  if w.2.2 && !ni then
    (if last then (if noTags then writeIndent d 0 true w.2.1 else writeIndent d (-1) false w.2.1)
    else writeIndent d 0 false w.2.1)
  else ([], w.2.1)

mutual
/-- The loop over the sub-tags in `encodeTag` (rbxlx/document.go:1104-1121); `noTags` and `ni` are those of
the tag containing them. -/
def writeTags (d : Doc) (noTags ni : Bool) : Int → List Tag → Bytes × Int
  | depth, [] => ([], depth)
  | depth, t :: rest =>
    let w := writeSub d ni depth t
    let i := writeAfter d noTags ni rest.isEmpty w
    let r := writeTags d noTags ni i.2 rest
    (w.1 ++ i.1 ++ r.1, r.2)
/-- `encodeTag` of a sub-tag (rbxlx/document.go:1024-1139). -/
def writeSub (d : Doc) (ni : Bool) : Int → Tag → Bytes × Int × Bool
  | depth, ⟨h, ts⟩ => writeTag d false ni depth h (!ts.isEmpty)
      (fun depth => writeTags d false (ni || h.noIndent) depth ts)
end

/-- `WriteTo` (rbxlx/document.go:1277-1296): what is written. -/
def writeTo (d : Doc) : Bytes :=
  match d.root with
  | none => []
  | some ⟨h, ts⟩ =>
    d.pre ++ (writeTag d d.excludeRoot h.noIndent 0 h (!ts.isEmpty)
      (fun depth => writeTags d d.excludeRoot (h.noIndent || h.noIndent) depth ts)).1 ++ d.suffix

end Rbxlx

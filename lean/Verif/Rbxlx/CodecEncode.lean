import Verif.Go.Sort
import Verif.Rbxlx.CodecValue
import Verif.Rbxfile.NamesLemmas
/-!
# Encoding a tree into a document (rbxlx/codec.go:1083-1673, 1709-1738, rbxlx/format.go:76-98)

`F` stands for the conversions between floating point numbers and text, `hash` for the first 16 bytes of
blake2b-256, `gen` for the stream of random references (of which at most `attempts` are tried at a time), `it`
for the order in which Go iterates over maps, `srt` for `sort.Sort`.
-/
namespace Rbxlx
open Go Rbxfile

variable {ρ : Type} [DecidableEq ρ]

/-! ## Values -/

/-- `fixFloatExp(s, 3)` (rbxlx/codec.go:1717-1726). -/
def fixFloatExp (s : Bytes) : Bytes :=
  match s.idxOf? 101#8 with
  | none => s
  | some e =>
    let exp := s.drop (e + 2)
    if exp.length < 3 then s.take (e + 2) ++ List.replicate (3 - exp.length) 48#8 ++ exp else s

/-- `encodeFloat` (rbxlx/codec.go:1709-1711). -/
def encodeFloat (F : FloatText) (f : F32) : Bytes := fixFloatExp (F.format32 9 f)

/-- `encodeFloatPrec` (rbxlx/codec.go:1713-1715). -/
def encodeFloatPrec (F : FloatText) (f : F32) (prec : Nat) : Bytes := fixFloatExp (F.format32 prec f)

/-- `encodeDouble` (rbxlx/codec.go:1728-1730). -/
def encodeDouble (F : FloatText) (f : F64) : Bytes := F.format64 9 f

/-- `strings.Index(s, "]]>") >= 0`. -/
def hasCDataEnd : Bytes → Bool
  | [] => false
  | b :: s => (str "]]>").isPrefixOf (b :: s) || hasCDataEnd s

/-- `encodeContent` (rbxlx/codec.go:1732-1738) on the fields of a tag. -/
def encodeContent (h : Head) (text : Bytes) : Head :=
  if hasCDataEnd text then { h with cdata := some text } else { h with text := text }

/-- A tag with a text that is not indented. -/
def leaf (name text : Bytes) : Tag := ⟨{ startName := name, noIndent := true, text := text }, []⟩

/-- A tag with sub-tags. -/
def node (name : Bytes) (ts : List Tag) : Tag := ⟨{ startName := name }, ts⟩

/-- The tags for X, Y, Z (rbxlx/codec.go:1488-1490). -/
def xyzTags (F : FloatText) (v : Vector3) : List Tag :=
  [leaf (str "X") (encodeFloat F v.x), leaf (str "Y") (encodeFloat F v.y), leaf (str "Z") (encodeFloat F v.z)]

/-- The tags for X, Y (rbxlx/codec.go:1470-1471). -/
def xyTags (F : FloatText) (v : Vector2) : List Tag :=
  [leaf (str "X") (encodeFloat F v.x), leaf (str "Y") (encodeFloat F v.y)]

/-- The tags for a CFrame (rbxlx/codec.go:1303-1316). -/
def cframeTags (F : FloatText) (p : Vector3) (r : Matrix) : List Tag :=
  [leaf (str "X") (encodeFloat F p.x), leaf (str "Y") (encodeFloat F p.y), leaf (str "Z") (encodeFloat F p.z),
    leaf (str "R00") (encodeFloat F r.m0), leaf (str "R01") (encodeFloat F r.m1), leaf (str "R02") (encodeFloat F r.m2),
    leaf (str "R10") (encodeFloat F r.m3), leaf (str "R11") (encodeFloat F r.m4), leaf (str "R12") (encodeFloat F r.m5),
    leaf (str "R20") (encodeFloat F r.m6), leaf (str "R21") (encodeFloat F r.m7), leaf (str "R22") (encodeFloat F r.m8)]

/-- The number with the given bits, the first being the lowest (rbxlx/codec.go:1250-1255, 1356-1361). -/
def flagBits : List Bool → Nat
  | [] => 0
  | b :: bs => (if b then 1 else 0) + 2 * flagBits bs

/-- The tag for a Content value, named `name` (rbxlx/codec.go:1329-1346, 1654-1655, 1665-1666). -/
def contentTag (name s : Bytes) : Tag :=
  ⟨{ startName := name, noIndent := true }, [if s = [] then leaf (str "null") [] else leaf (str "url") s]⟩

/-- A number followed by a space, as in sequences (rbxlx/codec.go:1507-1512). -/
def seqFloat (F : FloatText) (f : F32) : Bytes := encodeFloatPrec F f 6 ++ [32#8]

/-- The text of a NumberSequence (rbxlx/codec.go:1505-1513). -/
def numbersText (F : FloatText) : List NumberKeypoint → Bytes
  | [] => []
  | k :: ks => seqFloat F k.time ++ seqFloat F k.value ++ seqFloat F k.envelope ++ numbersText F ks

/-- The text of a ColorSequence (rbxlx/codec.go:1520-1532). -/
def colorsText (F : FloatText) : List ColorKeypoint → Bytes
  | [] => []
  | k :: ks => seqFloat F k.time ++ seqFloat F k.value.r ++ seqFloat F k.value.g ++ seqFloat F k.value.b ++
      seqFloat F k.envelope ++ colorsText F ks

/-- `GetCanonTag` without the prefix for optional types (rbxlx/codec.go:253-319). -/
def canonTag : Ty → Bytes
  | .axes => str "Axes" | .binaryString => str "BinaryString" | .bool => str "bool"
  | .brickColor => str "BrickColor" | .cframe => str "CoordinateFrame" | .color3 => str "Color3"
  | .content => str "Content" | .double => str "double" | .faces => str "Faces" | .float => str "float"
  | .int => str "int" | .protectedString => str "ProtectedString" | .ray => str "Ray"
  | .reference => str "Object" | .string => str "string" | .token => str "token" | .udim => str "UDim"
  | .udim2 => str "UDim2" | .vector2 => str "Vector2" | .vector2int16 => str "Vector2int16"
  | .vector3 => str "Vector3" | .vector3int16 => str "Vector3int16"
  | .numberSequence => str "NumberSequence" | .colorSequence => str "ColorSequence"
  | .numberRange => str "NumberRange" | .rect => str "Rect2D"
  | .physicalProperties => str "PhysicalProperties" | .color3uint8 => str "Color3uint8"
  | .int64 => str "int64" | .sharedString => str "SharedString" | .uniqueId => str "UniqueId"
  | .font => str "Font" | .invalid => [] | .optional => []

/-- `GetCanonTag` (rbxlx/codec.go:253-324). -/
def getCanonTag (t : Ty) (optional : Bool) : Bytes := (if optional then str "Optional" else []) ++ canonTag t

/-- The tag of `encodeProperty` (rbxlx/codec.go:1247-1673), apart from its effect on the references and the
shared strings; `ref` is the text for a reference. -/
def encodeValue (F : FloatText) (hash : Bytes → Bytes) (ref : Bytes) : Value ρ → Option Tag
  | .axes x y z => some (node (str "Axes") [leaf (str "axes") (formatUint (flagBits [x, y, z]))])
  | .binaryString s => some ⟨encodeContent { startName := str "BinaryString", noIndent := true } (b64Split s), []⟩
  | .bool b => some (leaf (str "bool") (if b then str "true" else str "false"))
  | .brickColor n => some (leaf (str "int") (formatUint n.toNat))
  | .cframe p r => some (node (str "CoordinateFrame") (cframeTags F p r))
  | .color3 c => some (node (str "Color3") [leaf (str "R") (encodeFloat F c.r), leaf (str "G") (encodeFloat F c.g),
      leaf (str "B") (encodeFloat F c.b)])
  | .content s => some (contentTag (str "Content") s)
  | .double f => some (leaf (str "double") (encodeDouble F f))
  | .faces r t b l bo f => some (node (str "Faces") [leaf (str "faces") (formatUint (flagBits [r, t, b, l, bo, f]))])
  | .float f => some (leaf (str "float") (encodeFloat F f))
  | .int n => some (leaf (str "int") (formatInt n.toInt))
  | .protectedString s => some ⟨encodeContent { startName := str "ProtectedString", noIndent := true } s, []⟩
  | .ray o _ => some (node (str "Ray") [node (str "origin") (xyzTags F o), node (str "direction") (xyzTags F o)])
  | .reference _ => some (leaf (str "Ref") ref)
  | .string s => some (leaf (str "string") s)
  | .token n => some (leaf (str "token") (formatUint n.toNat))
  | .udim u => some (node (str "UDim") [leaf (str "S") (encodeFloat F u.scale), leaf (str "O") (formatInt u.offset.toInt)])
  | .udim2 x y => some (node (str "UDim2") [leaf (str "XS") (encodeFloat F x.scale),
      leaf (str "XO") (formatInt x.offset.toInt), leaf (str "YS") (encodeFloat F y.scale),
      leaf (str "YO") (formatInt y.offset.toInt)])
  | .vector2 v => some (node (str "Vector2") (xyTags F v))
  | .vector2int16 x y => some (node (str "Vector2int16") [leaf (str "X") (formatInt x.toInt),
      leaf (str "Y") (formatInt y.toInt)])
  | .vector3 v => some (node (str "Vector3") (xyzTags F v))
  | .vector3int16 x y z => some (node (str "Vector3int16") [leaf (str "X") (formatInt x.toInt),
      leaf (str "Y") (formatInt y.toInt), leaf (str "Z") (formatInt z.toInt)])
  | .numberSequence ks => some ⟨{ startName := str "NumberSequence", text := numbersText F ks }, []⟩
  | .colorSequence ks => some ⟨{ startName := str "ColorSequence", text := colorsText F ks }, []⟩
  | .numberRange a b => some ⟨{ startName := str "NumberRange", text := seqFloat F a ++ seqFloat F b }, []⟩
  | .rect a b => some (node (str "Rect2D") [node (str "min") (xyTags F a), node (str "max") (xyTags F b)])
  | .physicalProperties c d f e fw ew =>
    some (node (str "PhysicalProperties") (if c then [
        ⟨{ startName := str "CustomPhysics", text := str "true" }, []⟩,
        ⟨{ startName := str "Density", text := encodeFloat F d }, []⟩,
        ⟨{ startName := str "Friction", text := encodeFloat F f }, []⟩,
        ⟨{ startName := str "Elasticity", text := encodeFloat F e }, []⟩,
        ⟨{ startName := str "FrictionWeight", text := encodeFloat F fw }, []⟩,
        ⟨{ startName := str "ElasticityWeight", text := encodeFloat F ew }, []⟩]
      else [⟨{ startName := str "CustomPhysics", text := str "false" }, []⟩]))
  | .color3uint8 r g b => some (leaf (str "Color3uint8")
      (formatUint (255 * 16777216 + r.toNat * 65536 + g.toNat * 256 + b.toNat)))
  | .int64 n => some (leaf (str "int64") (formatInt n.toInt))
  | .sharedString s => some ⟨encodeContent { startName := str "SharedString", noIndent := true } (b64Split (hash s)), []⟩
  | .optional t o =>
    match o with
    | none => some ⟨{ startName := getCanonTag t true, noIndent := true }, []⟩
    | some (.cframe p r) => some (node (getCanonTag t true) [node (str "CFrame") (cframeTags F p r)])
    | some _ => some (node (getCanonTag t true) [])
  | .uniqueId r t i => some ⟨{ startName := str "UniqueId", text := hexDigits hexLower (be64 r ++ be32 t ++ be32 i) }, []⟩
  | .font fam w st c => some (node (str "Font") ([contentTag (str "Family") fam,
      leaf (str "Weight") (formatInt w.toNat), leaf (str "Style") (fontStyleString st)] ++
      (if c = [] then [] else [contentTag (str "CachedFaceId") c])))

/-! ## Trees -/

/-- The fields `refs` and `sharedStrings` of `rencoder` (rbxlx/codec.go:1083-1090), with the instances. -/
structure EncState (ρ : Type) where
  refs : RefState ρ
  shared : Map Bytes Bytes := []

/-- The parameters of the encoder and the options of `robloxCodec` (rbxlx/codec.go:21-40). -/
structure Params where
  F : FloatText
  hash : Bytes → Bytes
  gen : Nat → Bytes
  attempts : Nat
  it : Iter
  srt : Sorter
  excludeReferent : Bool := false
  excludeExternal : Bool := false
  excludeMetadata : Bool := false

/-- `encodeProperty` (rbxlx/codec.go:1247-1673) with its effects. -/
def encodeProperty (P : Params) (st : EncState ρ) (v : Value ρ) : Res (Option Tag × EncState ρ) :=
  match v with
  | .reference (some p) =>
    match getRef P.gen P.attempts st.refs (some p) with
    | .panic => .panic
    | .err e => .err e
    | .ok (r, refs) => .ok (encodeValue P.F P.hash r v, { st with refs := refs })
  | .sharedString s =>
    .ok (encodeValue P.F P.hash (str "null") v,
      { st with shared := if (st.shared.get? (P.hash s)).isSome then st.shared else st.shared.set (P.hash s) s })
  | v => .ok (encodeValue P.F P.hash (str "null") v, st)

/-- The attribute `name` is set. -/
def named (name : Bytes) : Tag → Tag
  | ⟨h, ts⟩ => ⟨{ h with attr := [(str "name", name)] }, ts⟩

/-- The loop over the sorted names in `encodeProperties` (rbxlx/codec.go:1235-1242). -/
def encodeProps (P : Params) (props : Map Bytes (Value ρ)) : List Bytes → EncState ρ → Res (List Tag × EncState ρ)
  | [], st => .ok ([], st)
  | n :: ns, st =>
    match props.get? n with
    | none => encodeProps P props ns st
    | some v =>
      match encodeProperty P st v with
      | .panic => .panic
      | .err e => .err e
      | .ok (t, st) =>
        match encodeProps P props ns st with
        | .panic => .panic
        | .err e => .err e
        | .ok (ts, st) => .ok ((t.map (named n)).toList ++ ts, st)

/-- The sorted names (rbxlx/codec.go:1229-1233); `path` is the position of the instance in the tree. -/
def sortedNames (P : Params) (path : List Nat) (props : Map Bytes (Value ρ)) : List Bytes :=
  P.srt.run bytesLt (P.it.run (1 :: path) props.keys)

/-- `newItem` (rbxlx/document.go:133-147) and the removal of the referent (rbxlx/codec.go:1211-1214). -/
def itemTag (P : Params) (cls ref : Bytes) (props kids : List Tag) : Tag :=
  let attr := [(str "class", cls), (str "referent", ref)]
  ⟨{ startName := str "Item", attr := if P.excludeReferent then setAttrValue attr (str "referent") [] else attr },
    node (str "Properties") props :: kids⟩

/-- The loop over instances (rbxlx/codec.go:1176-1178, 1217-1219) from the `i`-th at a position. -/
def encodeAll (f : List Nat → ρ → EncState ρ → Res (Tag × EncState ρ)) (path : List Nat) :
    Nat → List ρ → EncState ρ → Res (List Tag × EncState ρ)
  | _, [], st => .ok ([], st)
  | i, p :: ps, st =>
    match f (i :: path) p st with
    | .panic => .panic
    | .err e => .err e
    | .ok (t, st) =>
      match encodeAll f path (i + 1) ps st with
      | .panic => .panic
      | .err e => .err e
      | .ok (ts, st) => .ok (t :: ts, st)

/-- `encodeInstance` (rbxlx/codec.go:1208-1220). The first argument bounds the depth of the tree; with a tree that
is not finite the Go program overflows its stack. -/
def encodeInstance (P : Params) : Nat → List Nat → ρ → EncState ρ → Res (Tag × EncState ρ)
  | 0, _, _, _ => .panic
  | fuel + 1, path, p, st =>
    match getRef P.gen P.attempts st.refs (some p) with
    | .panic => .panic
    | .err e => .err e
    | .ok (ref, refs) =>
      match refs.heap.get? p with
      | none => .panic
      | some inst =>
        match encodeProps P inst.properties (sortedNames P path inst.properties) { st with refs := refs } with
        | .panic => .panic
        | .err e => .err e
        | .ok (props, st) =>
          match encodeAll (encodeInstance P fuel) path 0 inst.children st with
          | .panic => .panic
          | .err e => .err e
          | .ok (kids, st) => .ok (itemTag P inst.className ref props kids, st)

/-- The Meta tags (rbxlx/codec.go:1158-1168). -/
def metaTags (P : Params) (m : Map Bytes Bytes) : List Tag :=
  (P.srt.run (fun a b => bytesLt a.1 b.1) (P.it.run [0] m)).map fun x =>
    ⟨{ startName := str "Meta", attr := [(str "name", x.1)], text := x.2 }, []⟩

/-- The External tags (rbxlx/codec.go:1170-1173). -/
def externalTags : List Tag :=
  [⟨{ startName := str "External", text := str "null" }, []⟩, ⟨{ startName := str "External", text := str "nil" }, []⟩]

/-- The SharedStrings tag (rbxlx/codec.go:1180-1205). -/
def sharedTags (P : Params) (shared : Map Bytes Bytes) : List Tag :=
  if shared = [] then []
  else [node (str "SharedStrings") ((P.srt.run bytesLt (P.it.run [2] shared.keys)).map fun k =>
    ⟨{ startName := str "SharedString", attr := [(str "md5", b64Encode k)],
       text := b64Wrap ((shared.get? k).getD []) }, []⟩)]

/-- `newRoot` (rbxlx/document.go:107-130). -/
def rootHead : Head where
  startName := str "roblox"
  attr := [(str "xmlns:xmime", str "http://www.w3.org/2005/05/xmlmime"),
    (str "xmlns:xsi", str "http://www.w3.org/2001/XMLSchema-instance"),
    (str "xsi:noNamespaceSchemaLocation", str "http://www.roblox.com/roblox.xsd"),
    (str "version", str "4")]

/-- `Encode` (rbxlx/codec.go:1092-1103, 1151-1206): the root tag and the instances, of which the references may
have changed. The depth of a finite tree is bounded by the number of instances. -/
def codecEncode (P : Params) (h : Heap ρ) (root : Root ρ) : Res (Tag × Heap ρ) :=
  match encodeAll (encodeInstance P (h.length + 1)) [] 0 root.instances ⟨⟨h, [], 0⟩, []⟩ with
  | .panic => .panic
  | .err e => .err e
  | .ok (items, st) =>
    .ok (⟨rootHead, (if P.excludeMetadata then [] else metaTags P root.metadata) ++
      (if P.excludeExternal then [] else externalTags) ++ items ++ sharedTags P st.shared⟩, st.refs.heap)

/-- The options of `Encoder` that concern the layout (rbxlx/format.go:54-73). -/
structure Layout where
  pre : Bytes := []
  indent : Bytes := []
  noDefaultIndent : Bool := false
  suffix : Bytes := []
  excludeRoot : Bool := false

/-- `Encoder.Encode` (rbxlx/format.go:76-98): the bytes written and the instances. -/
def encode (P : Params) (L : Layout) (h : Heap ρ) (root : Root ρ) : Res (Bytes × Heap ρ) :=
  match codecEncode P h root with
  | .panic => .panic
  | .err e => .err e
  | .ok (t, h) =>
    .ok (writeTo ⟨L.pre, if L.indent = [] && !L.noDefaultIndent then str "\t" else L.indent, L.suffix, L.excludeRoot,
      some t⟩, h)

end Rbxlx

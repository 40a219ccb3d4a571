import Verif.Rbxlx.CodecDecode
import Verif.Rbxlx.CodecEncode
/-!
# The warnings of the codec and of the writer (rbxlx/codec.go:132, 524, rbxlx/document.go:1046-1060)

The decoder once more, with the warnings that it adds to the document. (`Verif.Rbxlx.CodecDecode` is the decoder without
warnings; `getItemsW_eq` shows that the warnings change nothing else.)
-/
namespace Rbxlx
open Go Rbxfile

/-! ## Decoding -/

/-- The warnings of the codec: an Item without a class (rbxlx/codec.go:132), a Content with binary data
(rbxlx/codec.go:524). -/
inductive CodecWarn where
  | noClass
  | binaryData
  deriving DecidableEq

/-- The tag has content (rbxlx/codec.go:515). -/
def hasText (t : Tag) : Bool :=
  match t.head.cdata with
  | none => decide (t.head.text ≠ [])
  | some c => decide (c ≠ [])

/-- The case of Content in `getValue` (rbxlx/codec.go:514-545): the warnings. -/
def contentWarns (t : Tag) : List CodecWarn :=
  if hasText t then []
  else
    match t.tags with
    | s :: _ => if s.head.startName = str "binary" then [.binaryData] else []
    | [] => []

/-- The case of Font in `getValue` (rbxlx/codec.go:945-976): the warnings. -/
def fontWarns (F : FloatText) (discard : Bool) (t : Tag) : List CodecWarn :=
  let r := getFrom F [(str "Family", .tag), (str "Weight", .weight), (str "Style", .style)] t
  if !r.1 then []
  else
    match r.2.tag (str "Family") with
    | none => []
    | some family =>
      contentWarns family ++
      match contentValue discard family with
      | none => []
      | some _ =>
        let r' := getFrom F [(str "CachedFaceId", .tag)] t
        match r'.1, r'.2.tag (str "CachedFaceId") with
        | true, some c => contentWarns c
        | _, _ => []

/-- `getValue` (rbxlx/codec.go:401-979): the warnings. -/
def valueWarns (F : FloatText) (discard : Bool) (t : Tag) : Ty → List CodecWarn
  | .content => contentWarns t
  | .font => fontWarns F discard t
  | _ => []

/-- `getProperty` (rbxlx/codec.go:190-237): the warnings. -/
def propWarns (F : FloatText) (discard : Bool) (t : Tag) : List CodecWarn :=
  match attrValue t.head.attr (str "name") with
  | none => []
  | some _ =>
    let (ty, optional) := getCanonType t.head.startName
    if optional then
      match getOptional F t ty with
      | some (some t) => valueWarns F discard t ty
      | _ => []
    else valueWarns F discard t ty

/-- The loop over the tags in `Properties` (rbxlx/codec.go:160-165); `ws` are the warnings so far. -/
def getPropsW (F : FloatText) (discard : Bool) (p : Nat) : List Tag → Map Bytes (Value Nat) → DecState → List CodecWarn →
    Res (Map Bytes (Value Nat) × DecState × List CodecWarn)
  | [], props, st, ws => .ok (props, st, ws)
  | t :: ts, props, st, ws =>
    match getProperty F discard t with
    | .panic => .panic
    | .err e => .err e
    | .ok r => getPropsW F discard p ts (applyProp p r props st).1 (applyProp p r props st).2 (ws ++ propWarns F discard t)

mutual
/-- The loop of `getItems` (rbxlx/codec.go:123-170); `ws` are the warnings so far. -/
def getItemsW (F : FloatText) (discard : Bool) : List Tag → Option Nat → Bool → Map Bytes (Value Nat) → DecState →
    List CodecWarn → Res (List Nat × Map Bytes (Value Nat) × DecState × List CodecWarn)
  | [], _, _, props, st, ws => .ok ([], props, st, ws)
  | t :: ts, parent, hasProps, props, st, ws =>
    match getItemW F discard t parent hasProps props st ws with
    | .panic => .panic
    | .err e => .err e
    | .ok (ids, hasProps, props, st, ws) =>
      match getItemsW F discard ts parent hasProps props st ws with
      | .panic => .panic
      | .err e => .err e
      | .ok (ids', props, st, ws) => .ok (ids ++ ids', props, st, ws)
/-- The body of the loop of `getItems` (rbxlx/codec.go:128-166). -/
def getItemW (F : FloatText) (discard : Bool) : Tag → Option Nat → Bool → Map Bytes (Value Nat) → DecState →
    List CodecWarn → Res (List Nat × Bool × Map Bytes (Value Nat) × DecState × List CodecWarn)
  | ⟨h, ts⟩, parent, hasProps, props, st, ws =>
    if h.startName = str "Item" then
      match attrValue h.attr (str "class") with
      | none => .ok ([], hasProps, props, st, ws ++ [.noClass])
      | some cls =>
        let p := st.heap.length
        let referent := attrValue h.attr (str "referent")
        match getItemsW F discard ts (some p) false [] (enterItem cls referent st) ws with
        | .panic => .panic
        | .err e => .err e
        | .ok (kids, own, st, ws) =>
          .ok ([p], hasProps, props, { st with
            heap := st.heap.set p ⟨cls, referent.getD [], false, own, kids⟩ }, ws)
    else if h.startName = str "Properties" then
      match parent with
      | none => .ok ([], hasProps, props, st, ws)
      | some p =>
        if hasProps then .ok ([], hasProps, props, st, ws)
        else
          match getPropsW F discard p ts props st ws with
          | .panic => .panic
          | .err e => .err e
          | .ok (props, st, ws) => .ok ([], true, props, st, ws)
    else .ok ([], hasProps, props, st, ws)
end

/-- `Decode` (rbxlx/codec.go:42-56, 68-121) with the warnings. -/
def codecDecodeW (F : FloatText) (discard : Bool) (root : Option Tag) : Res (Heap Nat × Root Nat × List CodecWarn) :=
  match root with
  | none => .ok ([], {}, [])
  | some t =>
    match getItemsW F discard t.tags none false [] {} [] with
    | .panic => .panic
    | .err e => .err e
    | .ok (ids, _, st, ws) =>
      let r := rootTags st.stringRefs t.tags [] st.heap
      .ok (st.propRefs.foldl (fun h pr => (st.lookup.resolve pr h).2) r.2, ⟨ids, r.1⟩, ws)

/-- `Decoder.Decode` (rbxlx/format.go:22-35) with the warnings of the codec. -/
def decodeW (F : FloatText) (discard : Bool) (s : Bytes) : Res (Heap Nat × Root Nat × List CodecWarn) :=
  match readFrom s with
  | .panic => .panic
  | .err e => .err e
  | .ok (root, _) => codecDecodeW F discard root

/-! ## Writing -/

/-- The warnings of the writer: a tag that is ignored (rbxlx/document.go:1046), an end name that is replaced
(rbxlx/document.go:1052), an attribute that is ignored (rbxlx/document.go:1060). -/
inductive WriteWarn where
  | startName (n : Bytes)
  | endName (n : Bytes)
  | attrName (n : Bytes)
  deriving DecidableEq

/-- The warnings of `encodeTag` (rbxlx/document.go:1024-1139) without those for the sub-tags, which are given by `kids`, if
the writer does not fail. -/
def headWarns (noTags : Bool) (h : Head) (kids : List WriteWarn) : List WriteWarn :=
  if h.comment then []
  else if noTags then kids
  else if !checkName .tag h.startName then [.startName h.startName]
  else (if !checkName .tag h.endName && decide (h.endName ≠ []) then [.endName h.endName] else []) ++
    ((h.attr.filter fun a => !checkName .attr a.1).map fun a => .attrName a.1) ++ (if h.empty then [] else kids)

mutual
/-- The warnings of the loop over the sub-tags (rbxlx/document.go:1104-1121). -/
def tagsWarns : List Tag → List WriteWarn
  | [] => []
  | t :: ts => tagWarns t ++ tagsWarns ts
/-- The warnings for a sub-tag (rbxlx/document.go:1024-1139). -/
def tagWarns : Tag → List WriteWarn
  | ⟨h, ts⟩ => headWarns false h (tagsWarns ts)
end

/-- The warnings of `WriteTo` (rbxlx/document.go:1277-1296), if the writer does not fail. The warning for a missing root tag is
not kept by the code: the result of `Append` is dropped. -/
def writeToWarns (d : Doc) : List WriteWarn :=
  match d.root with
  | none => []
  | some ⟨h, ts⟩ => headWarns d.excludeRoot h (tagsWarns ts)

variable {ρ : Type} [DecidableEq ρ]

/-- The warnings of `Encoder.Encode` (rbxlx/format.go:76-98). The codec has none. -/
def encodeWarns (P : Params) (L : Layout) (h : Heap ρ) (root : Root ρ) : Res (List WriteWarn) :=
  match codecEncode P h root with
  | .panic => .panic
  | .err e => .err e
  | .ok (t, _) =>
    .ok (writeToWarns ⟨L.pre, if L.indent = [] && !L.noDefaultIndent then str "\t" else L.indent, L.suffix, L.excludeRoot, some t⟩)

end Rbxlx

import Verif.Go.Writer
import Verif.Rbxlx.CodecEncode
/-!
# Writing a document to a writer that may fail (rbxlx/document.go:980-1296)

`encodeTag` and its helpers as they call `bufio.Writer`, with the sticky error `e.err` and the early returns. The helpers
`write`, `writeByte`, `writeString`, `flush` of `encoder` return `e.err == nil`; the model returns the new state only.
The byte count `e.n` and the warnings are not modelled. If the writer given is itself a `bufio.Writer` (which
`bufio.NewWriter` then returns), it is that one that is meant by `BufWriter`.
-/
namespace Rbxlx
open Go

variable {σ ε : Type} (W : Writer σ ε)

/-- `encoder` (rbxlx/document.go:980-988). -/
structure EncW (σ ε : Type) where
  bw : BufWriter σ ε
  depth : Int := 0
  err : Option ε := none

namespace EncW

/-- `write` (rbxlx/document.go:1141-1152). -/
def write (e : EncW σ ε) (p : Bytes) : EncW σ ε :=
  if e.err.isSome then e
  else
    let bw := e.bw.write W p
    { e with bw := bw, err := bw.err }

/-- `writeByte` (rbxlx/document.go:1154-1164). -/
def writeByte (e : EncW σ ε) (b : Byte) : EncW σ ε :=
  if e.err.isSome then e
  else
    let bw := e.bw.writeByte W b
    { e with bw := bw, err := bw.err }

/-- `writeString` (rbxlx/document.go:1166-1177). -/
def writeString (e : EncW σ ε) (s : Bytes) : EncW σ ε :=
  if e.err.isSome then e
  else
    let bw := e.bw.writeString W s
    { e with bw := bw, err := bw.err }

/-- `flush` (rbxlx/document.go:1179-1188). -/
def flush (e : EncW σ ε) : EncW σ ε :=
  if e.err.isSome then e
  else
    let bw := e.bw.flush W
    { e with bw := bw, err := bw.err }

/-- `writeIndent` (rbxlx/document.go:1190-1210); the errors of `bufio.Writer` are ignored here. -/
def writeIndent (d : Doc) (delta : Int) (notag : Bool) (e : EncW σ ε) : EncW σ ε :=
  if d.pre = [] ∧ d.indent = [] then e
  else
    let depth := if delta < 0 then e.depth - 1 else if 0 < delta then e.depth + 1 else e.depth
    if notag then { e with depth := depth }
    else
      let bw := e.bw.writeByte W 10#8
      let bw := if d.pre ≠ [] then bw.writeString W d.pre else bw
      let bw := if d.indent ≠ [] then (List.replicate depth.toNat d.indent).foldl (fun bw s => bw.writeString W s) bw else bw
      { e with bw := bw, depth := depth }

/-- The escape sequence of a byte, or `none` if it is written literally (rbxlx/document.go:1232-1267). -/
def escapeOf (lead : Bool) (b : Byte) : Option Bytes :=
  if lead && isSpace b then some (numbered b)
  else if b = 34#8 then some (str "&quot;")
  else if b = 39#8 then some (str "&apos;")
  else if b = 38#8 then some (str "&amp;")
  else if b = 60#8 then some (str "&lt;")
  else if b = 62#8 then some (str "&gt;")
  else if (32 ≤ b.toNat ∧ b.toNat ≤ 126) ∨ b = 10#8 ∨ b = 13#8 then none
  else some (numbered b)

/-- The loop of `escapeString` (rbxlx/document.go:1227-1273): `pending` is `s[last:i]`. -/
def escapeLoop : Bool → Bytes → Bytes → EncW σ ε → EncW σ ε
  | _, pending, [], e => e.writeString W pending
  | lead, pending, b :: s, e =>
    match escapeOf lead b with
    | none => escapeLoop false (pending ++ [b]) s e
    | some esc => escapeLoop (lead && isSpace b) [] s ((e.writeString W pending).write W esc)

/-- `escapeString` (rbxlx/document.go:1223-1274). -/
def escape (lead : Bool) (s : Bytes) (e : EncW σ ε) : EncW σ ε := escapeLoop W lead [] s e

/-- `encodeCData` (rbxlx/document.go:990-1002). -/
def cdata (c : Option Bytes) (e : EncW σ ε) : EncW σ ε :=
  match c with
  | none => e
  | some c => (((e.writeString W cdataOpen).write W c).writeString W (str "]]>")).flush W

/-- `encodeText` (rbxlx/document.go:1004-1010). -/
def text (t : Bytes) (e : EncW σ ε) : EncW σ ε := (e.escape W true t).flush W

/-- The loop over the attributes (rbxlx/document.go:1058-1069). -/
def attrs : List (Bytes × Bytes) → EncW σ ε → EncW σ ε
  | [], e => e
  | (name, value) :: rest, e =>
    attrs rest (if checkName .attr name then
      ((((e.writeByte W 32#8).writeString W name).writeByte W 61#8).writeByte W 34#8).escape W false value |>.writeByte W 34#8
      else e)

/-- `encodeTag` after the start tag (rbxlx/document.go:1086-1138), the loop over the sub-tags given by `kids`, which
returns whether it was completed. -/
def body (d : Doc) (noTags noindent : Bool) (h : Head) (hasTags : Bool) (kids : EncW σ ε → Bool × EncW σ ε)
    (e : EncW σ ε) : Int × EncW σ ε :=
  let e := e.cdata W h.cdata
  if h.cdata.isSome && e.err.isSome then (-1, e)
  else
    let e := if !noindent && !h.noIndent && hasTags then
        (if noTags then e.writeIndent W d 0 true else e.writeIndent W d 1 false) else e
    let e := e.text W h.text
    if e.err.isSome then (-1, e)
    else
      match kids e with
      | (false, e) => (-1, e)
      | (true, e) =>
        if noTags then (1, e)
        else
          let e := (((e.writeByte W 60#8).writeByte W 47#8).writeString W (writtenEnd h)).writeByte W 62#8 |>.flush W
          if e.err.isSome then (-1, e) else (1, e)

/-- `encodeTag` (rbxlx/document.go:1024-1139). -/
def tag (d : Doc) (noTags noindent : Bool) (h : Head) (hasTags : Bool) (kids : EncW σ ε → Bool × EncW σ ε)
    (e : EncW σ ε) : Int × EncW σ ε :=
  if e.err.isSome then (-1, e)
  else if h.comment then
    let e := e.writeString W (str "<!--")
    if e.err.isSome then (-1, e)
    else
      let e := e.text W h.text
      if e.err.isSome then (-1, e)
      else
        let e := e.writeString W (str "-->")
        if e.err.isSome then (-1, e) else (1, e)
  else if noTags then body W d noTags noindent h hasTags kids e
  else if !checkName .tag h.startName then (0, e)
  else
    let e := ((e.writeByte W 60#8).writeString W h.startName).attrs W h.attr
    if h.empty then
      let e := ((e.writeByte W 47#8).writeByte W 62#8).flush W
      if e.err.isSome then (-1, e) else (1, e)
    else
      let e := (e.writeByte W 62#8).flush W
      if e.err.isSome then (-1, e) else body W d noTags noindent h hasTags kids e

/-- The indentation after a sub-tag (rbxlx/document.go:1110-1120). -/
def after (d : Doc) (noTags ni last : Bool) (e : EncW σ ε) : EncW σ ε :=
  if !ni then
    (if last then (if noTags then e.writeIndent W d 0 true else e.writeIndent W d (-1) false)
    else e.writeIndent W d 0 false)
  else e

mutual
/-- The loop over the sub-tags (rbxlx/document.go:1104-1121). -/
def tags (d : Doc) (noTags ni : Bool) : List Tag → EncW σ ε → Bool × EncW σ ε
  | [], e => (true, e)
  | t :: rest, e =>
    match sub d ni t e with
    | (r, e) =>
      if r < 0 then (false, e)
      else tags d noTags ni rest (if r = 0 then e else e.after W d noTags ni rest.isEmpty)
/-- `encodeTag` of a sub-tag. -/
def sub (d : Doc) (ni : Bool) : Tag → EncW σ ε → Int × EncW σ ε
  | ⟨h, ts⟩, e => tag W d false ni h (!ts.isEmpty) (fun e => tags d false (ni || h.noIndent) ts e) e
end

end EncW

/-- `WriteTo` (rbxlx/document.go:1277-1296): the calls the writer has received, and the error. -/
def writeToW (d : Doc) (s : σ) : List (Spec.Call ε) × Option ε :=
  match d.root with
  | none => ([], none)
  | some ⟨h, ts⟩ =>
    let e : EncW σ ε := ⟨⟨⟨s, []⟩, [], none⟩, 0, none⟩
    let e := e.writeString W d.pre
    match EncW.tag W d d.excludeRoot h.noIndent h (!ts.isEmpty)
        (fun e => EncW.tags W d d.excludeRoot (h.noIndent || h.noIndent) ts e) e with
    | (r, e) =>
      if r < 0 then (e.bw.sink.calls, e.err)
      else
        let e := (e.writeString W d.suffix).flush W
        (e.bw.sink.calls, e.err)

/-- `Encoder.Encode` (rbxlx/format.go:76-98): the calls the writer has received and its error, which is wrapped, and the
instances. -/
def encodeTo {ρ : Type} [DecidableEq ρ] (P : Params) (L : Layout) (h : Rbxfile.Heap ρ) (root : Rbxfile.Root ρ) (s : σ) :
    Res ((List (Spec.Call ε) × Option ε) × Rbxfile.Heap ρ) :=
  match codecEncode P h root with
  | .panic => .panic
  | .err e => .err e
  | .ok (t, h) =>
    .ok (writeToW W ⟨L.pre, if L.indent = [] && !L.noDefaultIndent then str "\t" else L.indent, L.suffix, L.excludeRoot,
      some t⟩ s, h)

end Rbxlx

import Verif.Rbxlx.ReadSimDoc
import Verif.Rbxlx.CodecDecode
import Verif.Rbxfile.ValueEq
/-!
# Decoding from a reader (rbxlx/format.go:22-35, rbxlx/document.go:942-978)
-/
namespace Rbxlx
open Go Spec Rbxfile

/-- What `Decode` returns besides the warnings: an error of the parser, an error of the codec, or the tree. -/
inductive XmlResult (ε : Type) where
  | parse (x : DErr ε)
  | codec (x : Err)
  | tree (h : Heap Nat) (root : Root Nat)
  | panic
  deriving DecidableEq

/-- The result of the codec as a result of `Decode`. -/
def XmlResult.ofCodec {ε : Type} : Res (Heap Nat × Root Nat) → XmlResult ε
  | .ok (h, r) => .tree h r
  | .err x => .codec x
  | .panic => .panic

/-- The result of `Decode` and the warnings of the parser. Those of the codec (rbxlx/codec.go:132, 524) are
not modelled here. -/
structure XmlOut (ε : Type) where
  warns : List (String × Int)
  result : XmlResult ε
  deriving DecidableEq

/-- `Decode` from what `ReadFrom` has returned. A parser that fails without an error would be a panic; C77 shows that this
does not happen. -/
def finishDecode {ε : Type} (FT : FloatText) (discard : Bool) (x : Option (Option Tag × Bytes) × Dec ε) : XmlOut ε :=
  ⟨x.2.warns,
    match x.1 with
    | some (root, _) => .ofCodec (codecDecode FT discard root)
    | none =>
      match x.2.err with
      | some y => .parse y
      | none => .panic⟩

/-- `Decoder.Decode` (rbxlx/format.go:22-35) of a reader that is an `io.ByteReader` (rbxlx/document.go:956-957). `fuel` bounds
the number of steps. -/
def decodeByteReader {τ ε : Type} (B : ByteReader τ ε) (fuel : Nat) (FT : FloatText) (discard : Bool) (t : τ) : XmlOut ε × τ :=
  let r := (Dec.readFrom fuel {}).run B t
  (finishDecode FT discard r.1, r.2)

/-- `Decoder.Decode` (rbxlx/format.go:22-35) of another reader, which is buffered (rbxlx/document.go:958-960). `noProgress` is
`io.ErrNoProgress`. -/
def decodeReader {σ ε : Type} (R : Reader σ ε) (noProgress : ε) (fuel : Nat) (FT : FloatText) (discard : Bool) (s : σ) : XmlOut ε :=
  (decodeByteReader (buffered R noProgress) fuel FT discard ⟨s, [], none⟩).1

end Rbxlx

import Verif.Rbxl.ReadFrom
import Verif.Rbxl.CodecDecode
import Verif.Rbxl.WriteTo
/-!
# `Decoder.Decode` and `Decoder.Decompress` from a reader
-/
namespace Rbxl
open Go Spec Rbxfile

/-- What `Decoder.Decode` returns; `left` is the state in which the reader is left. `data offset cause` is a `DataError`,
`codec` an error of the codec; `xml` is the call of the XML decoder, with a reader that first returns `signature` and
then continues with `left`. `running` means that the number of steps allowed was not enough. -/
inductive RootResult (σ ε : Type) where
  | tree (heap : Heap Id) (root : Root Id) (left : σ)
  | xml (signature : Bytes) (left : σ)
  | data (offset : Nat) (cause : Cause ε) (left : σ)
  | codec (e : Err) (left : σ)
  | panic
  | running

/-- The result of `Decoder.Decode` with the warnings and the statistics. -/
structure RootOut (σ ε : Type) where
  warns : List Warn
  codecWarns : List CodecWarn
  stats : Stats
  result : RootResult σ ε

/-- The result of the codec. -/
def RootResult.ofCodec {σ ε : Type} (left : σ) : Res (Heap Id × Root Id) → RootResult σ ε
  | .ok (h, root) => .tree h root left
  | .err e => .codec e left
  | .panic => .panic

/-- `Decoder.Decode` (rbxl/decoder.go:38-64) from a reader in state `s`, up to the call of the XML decoder. `DataError` is
made by `decodeError` (rbxl/decoder.go:89-96). -/
def decodeRootFrom {σ ε : Type} (R : Reader σ ε) (grow : Nat → Nat) (fuel : Nat) (lz : LZ4) (slack : Bytes → Nat) (quat : Quat)
    (noXML : Bool) (s : σ) : RootOut σ ε :=
  match decodeFileFrom R grow fuel lz slack noXML false s with
  | (ws, st, .running) => ⟨ws, [], st, .running⟩
  | (ws, st, .panic) => ⟨ws, [], st, .panic⟩
  | (ws, st, .fail c r) => ⟨ws, [], st, .data r.n c r.state⟩
  | (ws, st, .ok (.xml sig) r) => ⟨ws, [], st, .xml sig r.state⟩
  | (ws, st, .ok (.model f) r) => ⟨ws, (codecDecode quat f).1, st, .ofCodec r.state (codecDecode quat f).2⟩

/-- What `Decoder.Decompress` returns, apart from the warnings; `written` has the calls of the writer and the error of
the encoder. -/
inductive Decompressed (ε ε' : Type) where
  | written (calls : List (Call ε')) (err : Option (Nat × Fail ε'))
  | data (offset : Nat) (cause : Cause ε)
  | xml
  | other (e : Err)
  | panic
  | running

/-- What the encoder has returned. -/
def Decompressed.ofEncode {ε ε' : Type} : Res (List (Call ε') × Option (Nat × Fail ε')) → Decompressed ε ε'
  | .ok (calls, err) => .written calls err
  | .err e => .other e
  | .panic => .panic

/-- `Decoder.Decompress` (rbxl/decoder.go:70-87), from a reader to a writer. -/
def decompressFrom {σ ε σ' ε' : Type} (R : Reader σ ε) (W : Writer σ' ε') (empty : ε' → Bool) (grow : Nat → Nat) (fuel : Nat)
    (lz : LZ4) (noXML : Bool) (s : σ) (s' : σ') : List Warn × Decompressed ε ε' :=
  match decodeFileFrom R grow fuel lz (fun _ => 0) noXML true s with
  | (ws, _, .running) => (ws, .running)
  | (ws, _, .panic) => (ws, .panic)
  | (ws, _, .fail c r) => (ws, .data r.n c)
  | (ws, _, .ok (.xml _) _) => (ws, .xml)
  | (ws, _, .ok (.model f) _) => (ws ++ encodeWarns true true f, .ofEncode (encodeFileTo W empty lz true f s'))

end Rbxl

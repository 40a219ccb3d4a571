import Verif.Spec.DecodeBinary
/-!
# Specification vocabulary: what of a binary file is reported as dropped
-/
namespace Spec
open Go Rbxfile Rbxl

/-- What is dropped of the chunk at position `j`, where `known` are the ids that the chunks before it declare: a PROP chunk without
values, and the entries of a PRNT chunk whose child is not declared. -/
def droppedIn (known : List Id) (j : Nat) (c : Chunk) : List CodecWarn :=
  match c.body with
  | .prop p => if p.props = none then [.noValueType j] else []
  | .parent p => (p.children.zipIdx.filter fun e => decide (e.1 ∉ known)).map fun e => .childMissing j e.2
  | _ => []

/-- What is dropped of the chunks, in order. -/
def dropped (cs : List Chunk) : List CodecWarn :=
  (List.range cs.length).flatMap fun j =>
    match cs[j]? with
    | some c => droppedIn (declared (cs.take j)) j c
    | none => []

/-- The warnings on the chunk at position `j` itself: on a chunk with an unknown signature, on one whose content could not be
decoded, and on an END chunk that is compressed or has another content than expected. -/
def Reports (j : Nat) (c : Chunk) (ws : List Warn) : Prop :=
  match c.body with
  | .unknown sig _ => ws = [.unknownSig j sig]
  | .errored sig _ => ∃ e, ws = [.chunk j sig e]
  | .end_ content => ws = (if c.compressed then [.endCompressed] else []) ++ (if content ≠ str "</roblox>" then [.endContent] else [])
  | _ => ws = []

end Spec

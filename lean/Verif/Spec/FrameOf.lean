import Verif.Rbxl.Model
import Mathlib.Data.List.Forall2
/-!
# Specification vocabulary: the frame of a chunk in a binary file
-/
namespace Spec
open Go Rbxl

/-- The bytes `frame` are a chunk with the given payload: a signature, the length of the data (zero if they are not compressed),
the length of the payload, four zero bytes, and the data. -/
def FrameOf (lz : LZ4) (frame payload : Bytes) : Prop :=
  ∃ (sig stored : BitVec 32) (data : Bytes), frame = le32 sig ++ (le32 stored ++ (le32 (len32 payload) ++ (le32 0 ++ data))) ∧
    ((stored = 0 ∧ data = payload) ∨ (lz.enc payload = .ok data ∧ stored = len32 data))

end Spec

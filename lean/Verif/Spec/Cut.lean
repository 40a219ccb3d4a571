import Verif.Go.Basic
import Verif.Rbxl.Model
/-!
# What the first bytes of the payload of a chunk tell

Each function gives, for a number `n` of bytes that are there, what they tell of the content that the complete bytes have: a field is told
when all of its bytes are there; it is zero otherwise.
-/
namespace Spec
open Go

/-- A number, a flag or the like, of `size` bytes. -/
def toldIf {α : Type} (n size : Nat) (zero x : α) : α := if size ≤ n then x else zero

/-- A string: four bytes for its length and its bytes. -/
def toldString (n : Nat) (s : Bytes) : Bytes := toldIf n (4 + s.length) [] s

/-- Pairs of strings. -/
def toldPairs : Nat → List (Bytes × Bytes) → List (Bytes × Bytes)
  | _, [] => []
  | n, (k, v) :: l => (toldString n k, toldString (n - (4 + k.length)) v) :: toldPairs (n - (4 + k.length) - (4 + v.length)) l

/-- Bytes, as many as there are of them. -/
def toldBytes (n : Nat) (b : Bytes) : Bytes := b.take n ++ List.replicate (b.length - n) 0#8

/-- Shared strings: a hash and a string. -/
def toldShared : Nat → List (Bytes × Bytes) → List (Bytes × Bytes)
  | _, [] => []
  | n, (h, v) :: l => (toldBytes n h, toldString (n - 16) v) :: toldShared (n - 16 - (4 + v.length)) l

/-- Numbers of instances: all of them or none. -/
def toldIds (n : Nat) (l : List (BitVec 32)) : List (BitVec 32) := toldIf n (4 * l.length) (List.replicate l.length 0) l

/-! ## The elements of a property

`Rbxl.Val` is the type of the elements. Here are those of the types that are stored one after the other. -/

/-- The types whose elements are stored one after the other. -/
def inOrder : Rbxl.TypeID → Bool
  | .string | .bool | .double | .ray | .faces | .axes | .vector2int16 | .vector3int16 | .numberSequence | .colorSequence
  | .numberRange | .physicalProperties | .font => true
  | _ => false

/-- How many bytes an element takes. -/
def elementSize : Rbxl.Val → Nat
  | .string s => 4 + s.length
  | .bool _ => 1
  | .double _ => 8
  | .ray .. => 24
  | .faces .. => 1
  | .axes .. => 1
  | .vector2int16 .. => 4
  | .vector3int16 .. => 6
  | .numberSequence ks => 4 + 12 * ks.length
  | .colorSequence ks => 4 + 20 * ks.length
  | .numberRange .. => 8
  | .physicalProperties custom .. => if custom = 0 then 1 else 21
  | .font family _ _ cached => (4 + family.length) + 2 + 1 + (4 + cached.length)
  | _ => 0

/-- The zero value of the type of an element. -/
def elementZero : Rbxl.Val → Rbxl.Val
  | .string _ => .string []
  | .bool _ => .bool false
  | .double _ => .double 0
  | .ray .. => .ray 0 0 0 0 0 0
  | .faces .. => .faces false false false false false false
  | .axes .. => .axes false false false
  | .vector2int16 .. => .vector2int16 0 0
  | .vector3int16 .. => .vector3int16 0 0 0
  | .numberSequence _ => .numberSequence []
  | .colorSequence _ => .colorSequence []
  | .numberRange .. => .numberRange 0 0
  | .physicalProperties .. => .physicalProperties 0 0 0 0 0 0
  | .font .. => .font [] 0 0 []
  | v => v

/-- Elements: each one of which all bytes are there. -/
def toldValues : Nat → List Rbxl.Val → List Rbxl.Val
  | _, [] => []
  | n, v :: l => toldIf n (elementSize v) (elementZero v) v :: toldValues (n - elementSize v) l

/-- The bytes that elements take. -/
def elementsSize (l : List Rbxl.Val) : Nat := (l.map elementSize).sum

/-- Flags of a byte each. -/
def toldFlags (n : Nat) (l : List Bool) : List Bool := l.take n ++ List.replicate (l.length - n) false

/-- An array of such elements, or an Optional array of them. -/
def InOrderArray : Rbxl.Arr → Prop
  | .plain t _ => inOrder t = true
  | .optional (.plain t _) _ => inOrder t = true
  | _ => False

/-- An array: a byte for its type, and its elements. Of an Optional array the byte for its type is followed by the array of its elements
and by the array of its flags, each of which has a byte for its type. -/
def toldArray (n : Nat) : Rbxl.Arr → Option Rbxl.Arr
  | .plain t vs => if 1 ≤ n then some (.plain t (toldValues (n - 1) vs)) else none
  | .optional (.plain t vs) present =>
      if n = 0 then none
      else if n = 1 then some (.optNil (List.replicate present.length false))
      else some (.optional (.plain t (toldValues (n - 2) vs)) (toldFlags (n - 3 - elementsSize vs) present))
  | _ => none

/-- A chunk, of whose payload there are the first `n` bytes. -/
def toldBody (n : Nat) : Rbxl.Body → Rbxl.Body
  | .metadata l => .metadata (if 4 ≤ n then toldPairs (n - 4) l else [])
  | .shared c => .shared ⟨toldIf n 4 0 c.version, if 8 ≤ n then toldShared (n - 8) c.values else []⟩
  | .inst c => .inst ⟨toldIf n 4 0 c.classID, toldString (n - 4) c.className,
      if 13 + c.className.length ≤ n then toldIds (n - (13 + c.className.length)) c.ids else [],
      toldIf n (9 + c.className.length) false c.isService,
      if 13 + c.className.length + 4 * c.ids.length ≤ n then
        toldBytes (n - (13 + c.className.length + 4 * c.ids.length)) c.getService
      else []⟩
  | .prop c => .prop ⟨toldIf n 4 0 c.classID, toldString (n - 4) c.name, c.props.bind (toldArray (n - (8 + c.name.length)))⟩
  | .parent c => .parent ⟨toldIf n 1 0 c.version, if 5 ≤ n then toldIds (n - 5) c.children else [],
      if 5 + 4 * c.children.length ≤ n then toldIds (n - (5 + 4 * c.children.length)) c.parents else []⟩
  | .end_ b => .end_ (b.take n)
  | b => b

/-- Chunks other than those of properties whose elements are not stored one after the other. -/
def CutInOrder : Rbxl.Body → Prop
  | .prop c => ∀ a, c.props = some a → InOrderArray a
  | _ => True

end Spec

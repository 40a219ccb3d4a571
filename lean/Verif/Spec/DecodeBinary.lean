import Verif.Rbxl.CodecDecode
/-!
# Specification vocabulary: what the chunks of a binary file say

These definitions read a list of chunks as a document, without reference to how it is decoded.
-/
namespace Spec
open Go Rbxfile Rbxl

/-- The instance ids that the INST chunks declare, in order. -/
def declared (cs : List Chunk) : List Id :=
  cs.flatMap fun c => match c.body with
    | .inst g => g.ids
    | _ => []

/-- The shared strings that a PROP chunk after `cs` refers to: those of the last SSTR chunk. -/
def sharedOf (cs : List Chunk) : List (Bytes × Bytes) :=
  (cs.filterMap fun c => match c.body with
    | .shared x => some x.values
    | _ => none).getLast?.getD []

/-- The pairs of the META chunks, in order. -/
def pairsOf (cs : List Chunk) : List (Bytes × Bytes) :=
  cs.flatMap fun c => match c.body with
    | .metadata vs => vs
    | _ => []

/-- The links (child, parent) of a chunk that count: both must be declared before it; the parent may also be -1. -/
def linksOfChunk (known : List Id) (c : Chunk) : List (Id × Id) :=
  match c.body with
  | .parent p => (p.children.zip p.parents).filter fun l =>
      decide (l.1 ∈ known) && (decide (l.2 = -1) || decide (l.2 ∈ known))
  | _ => []

/-- The links (child, parent) of the PRNT chunks that count, in order. -/
def linksOf (cs : List Chunk) : List (Id × Id) :=
  (List.range cs.length).flatMap fun j =>
    match cs[j]? with
    | some c => linksOfChunk (declared (cs.take j)) c
    | none => []

/-- The children that the links give to a parent, in order. -/
def childrenIn (links : List (Id × Id)) (parent : Id) : List Id :=
  (links.filter fun l => decide (l.2 = parent)).map Prod.fst

/-- The links connect `x` with the root (which is called -1). -/
inductive Linked (links : List (Id × Id)) : Id → Prop
  | root : Linked links (-1)
  | step {x p : Id} : Linked links p → (x, p) ∈ links → Linked links x

/-- No two of the links that are connected with the root have the same child. -/
def LinkedOnce (links : List (Id × Id)) : Prop := ∀ (i j : Nat) (x p q : Id), i < j → links[i]? = some (x, p) →
  links[j]? = some (x, q) → Linked links p → ¬ Linked links q

/-- `Reads quat known shared a i v`: the `i`-th element of the array `a` of a PROP chunk stands for the value `v`, where
`known` are the ids declared and `shared` the shared strings announced before the chunk. -/
inductive Reads (quat : Quat) (known : List Id) (shared : List (Bytes × Bytes)) : Arr → Nat → Value Id → Prop
  /-- a reference points to a declared instance or to nothing -/
  | reference {vs : List Val} {i : Nat} {x : Val} : vs[i]? = some x →
      Reads quat known shared (.plain .reference vs) i (.reference (if x.refNum ∈ known then some x.refNum else none))
  /-- a shared string is given by its index; an index out of range stands for the empty string -/
  | sharedString {vs : List Val} {i : Nat} {k : BitVec 32} : vs[i]? = some (.sharedString k) →
      Reads quat known shared (.plain .sharedString vs) i (.sharedString ((shared[k.toNat]?.map Prod.snd).getD []))
  /-- other values stand for themselves -/
  | plain {t : TypeID} {vs : List Val} {i : Nat} {x : Val} {v : Value Id} : t ≠ .reference → t ≠ .sharedString →
      vs[i]? = some x → decodeValue quat x = some v → Reads quat known shared (.plain t vs) i v
  | some {values : Arr} {present : List Bool} {i : Nat} {x : Val} {v : Value Id} : present[i]? = some true →
      values.get i = .ok (some x) → decodeValue quat x = some v →
      Reads quat known shared (.optional values present) i (.optional v.type (some v))
  | none {values : Arr} {present : List Bool} {i : Nat} : present[i]? = some false →
      Reads quat known shared (.optional values present) i (.optional values.type.valueType none)

/-- The PROP chunk at position `j` of `cs` gives values to the property `name` of the class `cls`. -/
def Gives (cs : List Chunk) (j : Nat) (cls : BitVec 32) (name : Bytes) (a : Arr) : Prop :=
  ∃ ch c, cs[j]? = some ch ∧ ch.body = .prop c ∧ c.classID = cls ∧ c.name = name ∧ c.props = some a

end Spec

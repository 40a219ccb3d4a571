import Verif.Go.Sort
import Verif.Rbxl.Model
import Verif.Rbxl.CodecValues
import Verif.Spec.Binary
import Verif.Spec.Tree
import Mathlib.Data.List.Forall2
/-!
# Specification vocabulary: the layout of a binary file

These definitions say which chunks a file of a tree has to have, and in which order, without reference to how they are made.
-/
namespace Spec
open Go Rbxfile Rbxl

variable {ρ : Type} [DecidableEq ρ]

/-- Each instance below `ps` with its parent, in the order of the tree, children before their parents; `par` is the parent of
the instances `ps`. -/
inductive PostOrder (h : Heap ρ) : Option ρ → List ρ → List (ρ × Option ρ) → Prop
  | nil {par : Option ρ} : PostOrder h par [] []
  | cons {par : Option ρ} {p : ρ} {ps : List ρ} {inst : Inst ρ} {below rest : List (ρ × Option ρ)} : h.get? p = some inst →
      PostOrder h (some p) inst.children below → PostOrder h par ps rest → PostOrder h par (p :: ps) (below ++ (p, par) :: rest)

/-- The number of an instance is its position in the listing of the tree (parents first); nothing has the number -1. -/
def Numbered (l : Map ρ (Inst ρ)) : Option ρ → BitVec 32 → Prop
  | none, i => i = -1
  | some p, i => (l[i.toNat]?).map Prod.fst = some p

/-- The INST chunk at position `k` among those of the file: the id of the class is `k`, the chunk lists the numbers of the
instances of the class in increasing order, and, if there are services among them and the file is a place, which of them are. -/
structure ClassChunk (place : Bool) (l : Map ρ (Inst ρ)) (k : Nat) (c : InstChunk) : Prop where
  id : c.classID.toNat = k
  occurs : ∃ x ∈ l, x.2.className = c.className
  ids : c.ids.map (·.toNat) = (List.range l.length).filter fun i => decide ((l[i]?).map (fun x => x.2.className) = some c.className)
  services : c.isService = true ↔ place = true ∧ ∃ i ∈ classmates l c.className, i.isService = true
  flags : c.isService = true → c.getService = (classmates l c.className).map fun i => if i.isService then 1#8 else 0#8

/-- The number of elements of an array of a PROP chunk. -/
def Elements : Arr → Nat → Prop
  | .plain _ vs, n => vs.length = n
  | .optional (.plain _ vs) present, n => vs.length = n ∧ present.length = n
  | _, _ => False

/-- The PROP chunk `p` of the class `cls`: it is there because the property is written, it has an element for every instance
of the class, and the type of the values. -/
structure ValueChunk (place : Bool) (l : Map ρ (Inst ρ)) (cls : Bytes) (p : PropChunk) : Prop where
  written : Written place (valuesOf (classmates l cls) p.name)
  array : ∃ a, p.props = some a ∧ Elements a (classmates l cls).length ∧
    ∀ v ∈ valuesOf (classmates l cls) p.name, fromValueType v.type = some a.type ∧
      ∀ t o, v = .optional t o → ∃ b present, a = .optional b present ∧ fromValueType t = some b.type

/-- The order of PROP chunks: by class, then by name. -/
def PropBefore (p q : PropChunk) : Prop :=
  p.classID.toNat < q.classID.toNat ∨ p.classID = q.classID ∧ bytesLt p.name q.name = true

/-- The layout of a file for the trees `ps` of the heap `h` listed by `l`. -/
structure FileLayout (place : Bool) (entries : Map Bytes Bytes) (h : Heap ρ) (ps : List ρ) (l : Map ρ (Inst ρ)) (m : FormatModel)
    (metas : List (List (Bytes × Bytes))) (shareds : List SharedChunk) (insts : List InstChunk) (props : List PropChunk)
    (parent : ParentChunk) : Prop where
  /-- the chunks, in this order, end with the closing tag -/
  chunks : m.chunks.map Chunk.body = metas.map .metadata ++ (shareds.map .shared ++ (insts.map .inst ++ (props.map .prop ++
    [.parent parent, .end_ (str "</roblox>")])))
  /-- the header -/
  version : m.version = 0
  classCount : m.classCount.toNat = insts.length
  instanceCount : m.instanceCount.toNat = l.length
  trailing : m.trailing = []
  /-- a META chunk with the metadata if there is any -/
  metadata : if entries = [] then metas = [] else ∃ vs, metas = [vs] ∧ vs.Perm entries
  /-- at most one SSTR chunk, with different strings that occur in the tree, and no hashes -/
  shared : shareds = [] ∨ ∃ vs, shareds = [⟨0, vs⟩] ∧ vs ≠ [] ∧ (vs.map Prod.snd).Nodup ∧
    ∀ x ∈ vs, x.1 = List.replicate 16 0#8 ∧ UsedShared l x.2
  /-- an INST chunk for each class, ordered by name -/
  classes : ∀ k c, insts[k]? = some c → ClassChunk place l k c
  allClasses : ∀ x ∈ l, ∃ c ∈ insts, c.className = x.2.className
  sorted : insts.Pairwise fun a b => bytesLt a.className b.className = true
  /-- a PROP chunk for each property that is written -/
  values : ∀ p ∈ props, ∃ c ∈ insts, p.classID = c.classID ∧ ValueChunk place l c.className p
  allValues : ∀ c ∈ insts, ∀ n, Written place (valuesOf (classmates l c.className) n) →
    ∃ p ∈ props, p.classID = c.classID ∧ p.name = n
  ordered : props.Pairwise PropBefore
  /-- the PRNT chunk -/
  parents : parent.version = 0 ∧ ∃ links, PostOrder h none ps links ∧
    List.Forall₂ (fun x i => Numbered l (some x.1) i) links parent.children ∧
    List.Forall₂ (fun x i => Numbered l x.2 i) links parent.parents

end Spec

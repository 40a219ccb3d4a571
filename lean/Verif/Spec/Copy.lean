import Verif.Spec.Tree
import Mathlib.Data.List.Forall2
/-!
# Specification vocabulary: copies of trees
-/
namespace Spec
open Go Rbxfile

/-- The value of a property in a copy of a tree: a reference to an instance of the tree becomes a
reference to its counterpart, everything else stays. `ren` maps the instances of the tree to their
counterparts. -/
def retarget (ren : Map Nat Nat) : Value Nat → Value Nat
  | .reference (some q) => .reference (some ((ren.get? q).getD q))
  | v => v

/-- `Counterparts h ps l h' cs ren`: going from the heap `h` to the heap `h'`, the trees `ps`, whose
instances are listed by `l`, have got a copy `cs` of the same shape; `ren` relates each instance of
the trees to its counterpart. -/
structure Counterparts (h : Heap Nat) (ps : List Nat) (l : Map Nat (Inst Nat))
    (h' : Heap Nat) (cs : List Nat) (ren : Map Nat Nat) : Prop where
  /-- each instance of the trees has one counterpart -/
  domain : ren.map Prod.fst = l.map Prod.fst
  /-- the counterparts are new and pairwise different -/
  fresh : ∀ p c, (p, c) ∈ ren → h.get? c = none
  distinct : (ren.map Prod.snd).Nodup
  /-- the roots of the copy, in order -/
  roots : List.Forall₂ (fun p c => (p, c) ∈ ren) ps cs
  /-- the children of a counterpart are the counterparts of the children, in order -/
  children : ∀ p c, (p, c) ∈ ren → ∃ a b, h.get? p = some a ∧ h'.get? c = some b ∧
    List.Forall₂ (fun p c => (p, c) ∈ ren) a.children b.children

/-- A deep copy. -/
structure IsDeepCopy (h : Heap Nat) (ps : List Nat) (l : Map Nat (Inst Nat))
    (h' : Heap Nat) (cs : List Nat) (ren : Map Nat Nat) : Prop
    extends Counterparts h ps l h' cs ren where
  /-- a copy has the class, the flag and the properties of the original -/
  same : ∀ p c a b, (p, c) ∈ ren → h.get? p = some a → h'.get? c = some b →
    b.className = a.className ∧ b.isService = a.isService ∧
    ∀ name, b.properties.get? name = (a.properties.get? name).map (retarget ren)
  /-- nothing but references of existing instances changes -/
  source : ∀ p a, h.get? p = some a → ∃ r, h'.get? p = some { a with reference := r }
  /-- nothing else is allocated -/
  onlyNew : ∀ x, (h'.get? x).isSome → (h.get? x).isSome ∨ x ∈ ren.map Prod.snd

/-- The value contains no Font whose CachedFaceId differs from its Family. -/
def FontClean {ρ : Type} : Value ρ → Prop
  | .font family _ _ cachedFaceId => cachedFaceId = family
  | .optional _ (some v) => FontClean v
  | _ => True

/-- The value with, in a Font, the Family in the place of the CachedFaceId. -/
def faceFromFamily {ρ : Type} : Value ρ → Value ρ
  | .font family weight style _ => .font family weight style family
  | .optional t (some v) => .optional t (some (faceFromFamily v))
  | v => v

/-- A deep copy in which the values have been changed by `φ`. -/
structure IsCopyBut (φ : Value Nat → Value Nat) (h : Heap Nat) (ps : List Nat) (l : Map Nat (Inst Nat))
    (h' : Heap Nat) (cs : List Nat) (ren : Map Nat Nat) : Prop
    extends Counterparts h ps l h' cs ren where
  /-- a copy has the class, the flag and the changed properties of the original -/
  same : ∀ p c a b, (p, c) ∈ ren → h.get? p = some a → h'.get? c = some b →
    b.className = a.className ∧ b.isService = a.isService ∧
    ∀ name, b.properties.get? name = (a.properties.get? name).map fun v => retarget ren (φ v)
  /-- nothing but references of existing instances changes -/
  source : ∀ p a, h.get? p = some a → ∃ r, h'.get? p = some { a with reference := r }
  /-- nothing else is allocated -/
  onlyNew : ∀ x, (h'.get? x).isSome → (h.get? x).isSome ∨ x ∈ ren.map Prod.snd

/-- No property of the listed instances contains such a Font. -/
def FontsClean (l : Map Nat (Inst Nat)) : Prop :=
  ∀ x ∈ l, ∀ name v, x.2.properties.get? name = some v → FontClean v

/-- All references of the heap point to instances of the heap, and the maps are maps. -/
structure HeapOk (h : Heap Nat) : Prop where
  closed : ∀ p a name q, h.get? p = some a → (name, Value.reference (some q)) ∈ a.properties →
    (h.get? q).isSome
  maps : ∀ p a, h.get? p = some a → a.properties.Ok

end Spec

import Verif.Spec.Wire
import Verif.Spec.FileLayout
/-!
# Specification vocabulary: the values of a tree in the binary format

Which element of a PROP chunk stands for a value of the tree. With the bytes of the element (`Spec.Wire.value`) this says how
a value is stored.
-/
namespace Spec.Wire
open Go Rbxfile Rbxl

variable {ρ : Type} [DecidableEq ρ]

/-- A reference is stored as the position of the instance in the listing of the tree; as -1 if it is nil, or leads outside. -/
def Target (l : Map ρ (Inst ρ)) : Option ρ → BitVec 32 → Prop
  | none, i => i = -1
  | some p, i => (p ∈ l.map Prod.fst → (l[i.toNat]?).map Prod.fst = some p) ∧ (p ∉ l.map Prod.fst → i = -1)

/-- The rotation of a CFrame: one that turns the axes X and Y into the normals `i` and `j` has the id `6 * i + j + 1`; any other
one has the id 0 and is stored by its numbers, row by row. -/
structure Turned (r : Matrix) (id : Byte) (m : Rot) : Prop where
  aligned : ∀ i j, RotationTo r i j → id.toNat = 6 * i + j + 1
  other : ¬ AxisAligned r → id = 0 ∧ m = ⟨r.m0, r.m1, r.m2, r.m3, r.m4, r.m5, r.m6, r.m7, r.m8⟩

/-- `Stores l strings v x`: the element `x` stores the value `v` of an instance of the tree listed by `l`; `strings` are the
shared strings of the file. -/
def Stores (l : Map ρ (Inst ρ)) (strings : List Bytes) : Value ρ → Val → Prop
  | .string s, x => x = .string s
  | .binaryString s, x => x = .string s
  | .protectedString s, x => x = .string s
  | .content s, x => x = .string s
  | .bool b, x => x = .bool b
  | .int n, x => x = .int n
  | .float f, x => x = .float f
  | .double f, x => x = .double f
  | .udim u, x => x = .udim u.scale u.offset
  | .udim2 u v, x => x = .udim2 u.scale v.scale u.offset v.offset
  | .ray origin dir, x => x = .ray origin.x origin.y origin.z dir.x dir.y dir.z
  | .faces right top back left bottom front, x => x = .faces right top back left bottom front
  | .axes a b c, x => x = .axes a b c
  | .brickColor n, x => x = .brickColor n
  | .color3 c, x => x = .color3 c.r c.g c.b
  | .vector2 v, x => x = .vector2 v.x v.y
  | .vector3 v, x => x = .vector3 ⟨v.x, v.y, v.z⟩
  | .cframe pos r, x => ∃ id m, x = .cframe id m ⟨pos.x, pos.y, pos.z⟩ ∧ Turned r id m
  | .token n, x => x = .token n
  | .reference p, x => ∃ i, x = .reference i ∧ Target l p i
  | .vector3int16 a b c, x => x = .vector3int16 a b c
  | .vector2int16 a b, x => x = .vector2int16 a b
  | .numberSequence ks, x => x = .numberSequence (ks.map fun k => ⟨k.time, k.value, k.envelope⟩)
  | .colorSequence ks, x => x = .colorSequence (ks.map fun k => ⟨k.time, k.value.r, k.value.g, k.value.b, k.envelope⟩)
  | .numberRange min max, x => x = .numberRange min max
  | .rect min max, x => x = .rect min.x min.y max.x max.y
  | .physicalProperties custom density friction elasticity frictionWeight elasticityWeight, x =>
      x = .physicalProperties (flag custom) density friction elasticity frictionWeight elasticityWeight
  | .color3uint8 r g b, x => x = .color3uint8 r g b
  | .int64 n, x => x = .int64 n
  | .sharedString s, x => ∃ k : Nat, x = .sharedString (BitVec.ofNat 32 k) ∧ strings[k]? = some s
  | .optional _ _, _ => False
  | .uniqueId random time index, x => x = .uniqueId random time index
  | .font family weight style cached, x => x = .font family weight style cached

/-- The element of an instance that does not have a value: it stores the zero value of its type; of references it is the number of
the first instance, of shared strings that of the first string. -/
def Blank (l : Map ρ (Inst ρ)) (x : Val) : Prop :=
  x = .reference 0 ∨ x = .sharedString 0 ∨ ∃ t, t ≠ .reference ∧ t ≠ .sharedString ∧ Stores l [] (zeroValue t) x

/-- The element of an instance with the value `own`, if it has one. -/
def Element (l : Map ρ (Inst ρ)) (strings : List Bytes) (own : Option (Value ρ)) (x : Val) : Prop :=
  match own with
  | some v => Stores l strings v x
  | none => Blank l x

/-- The element and the flag of an instance with the optional value `own`. References, shared strings and optional values are not
written as optional values. -/
def OptionalElement (l : Map ρ (Inst ρ)) (strings : List Bytes) (own : Option (Value ρ)) (x : Val × Bool) : Prop :=
  match own with
  | some (.optional _ (some (.reference _))) => x.2 = false ∧ Blank l x.1
  | some (.optional _ (some (.sharedString _))) => x.2 = false ∧ Blank l x.1
  | some (.optional _ (some (.optional _ _))) => x.2 = false ∧ Blank l x.1
  | some (.optional _ (some v)) => x.2 = true ∧ Stores l strings v x.1
  | _ => x.2 = false ∧ Blank l x.1

/-- The array of the PROP chunk `p` for the instances `insts`: an element of the type of the array for each of them, in order. -/
inductive Column (l : Map ρ (Inst ρ)) (strings : List Bytes) (insts : List (Inst ρ)) (p : PropChunk) : Prop
  | plain (t : TypeID) (vs : List Val) : p.props = some (.plain t vs) → (∀ x ∈ vs, x.type = t) →
      List.Forall₂ (fun i x => Element l strings (i.properties.get? p.name) x) insts vs → Column l strings insts p
  | optional (t : TypeID) (vs : List (Val × Bool)) : p.props = some (.optional (.plain t (vs.map Prod.fst)) (vs.map Prod.snd)) →
      (∀ x ∈ vs, x.1.type = t) →
      List.Forall₂ (fun i x => OptionalElement l strings (i.properties.get? p.name) x) insts vs → Column l strings insts p

/-- The chunks of a file of the trees `ps` of the heap `h` listed by `l`: it has the layout of such a file, its arrays store the
values, and its chunks are marked to be compressed, except for the last. -/
def TreeModel (place : Bool) (entries : Map Bytes Bytes) (h : Heap ρ) (ps : List ρ) (l : Map ρ (Inst ρ)) (m : FormatModel) : Prop :=
  ∃ metas shareds insts props parent, FileLayout place entries h ps l m metas shareds insts props parent ∧
    (∀ p ∈ props, ∃ c ∈ insts, p.classID = c.classID ∧
      Column l (shareds.flatMap fun c => c.values.map Prod.snd) (classmates l c.className) p) ∧
    ∃ cs e, m.chunks = cs ++ [⟨e, false⟩] ∧ ∀ c ∈ cs, c.compressed = true

end Spec.Wire

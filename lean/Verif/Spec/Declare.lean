import Verif.Declare.Model
/-!
# Specification vocabulary: declared trees
-/
namespace Spec
open Go Rbxfile Declare

/-- `Declared h ds ps l`: the instances `ps` of the heap `h` are as declared by `ds`: the same class names, references and
children, recursively. `l` lists the instances with their declarations in the order of declaration. -/
inductive Declared (h : Heap Nat) : List Instance → List Nat → List (Nat × Instance) → Prop
  | nil : Declared h [] [] []
  | cons {d : Instance} {ds : List Instance} {p : Nat} {ps : List Nat} {inst : Inst Nat}
      {below rest : List (Nat × Instance)} : h.get? p = some inst → inst.className = d.className →
      inst.reference = d.reference → inst.isService = false → Declared h d.children inst.children below →
      Declared h ds ps rest → Declared h (d :: ds) (p :: ps) ((p, d) :: (below ++ rest))

/-- The instance a reference resolves to: the last one that is declared with it. -/
def lastRef (l : List (Nat × Instance)) (s : Bytes) : Option Nat :=
  if s = [] then none else (l.filter fun x => decide (x.2.reference = s)).getLast?.map Prod.fst

/-- The last declaration of a property. -/
def lastProp (ps : List Property) (n : Bytes) : Option Property :=
  (ps.filter fun q => decide (q.name = n)).getLast?

/-- The declared instances. -/
def instancesOf : List Primary → List Instance
  | [] => []
  | .instance d :: ds => d :: instancesOf ds
  | .metadata .. :: ds => instancesOf ds

/-- The last value declared for a key of the metadata. -/
def lastMeta : List Primary → Bytes → Option Bytes
  | [], _ => none
  | .instance _ :: ds, k => lastMeta ds k
  | .metadata k' v :: ds, k => (lastMeta ds k).or (if k' = k then some v else none)

/-- The property `q` is declared somewhere in the trees `ds`. -/
inductive Occurs (q : Property) : List Instance → Prop
  | here {d : Instance} {ds : List Instance} : d ∈ ds → q ∈ d.properties → Occurs q ds
  | deeper {d : Instance} {ds : List Instance} : d ∈ ds → Occurs q d.children → Occurs q ds

/-- The declaration that makes `Root.Declare` panic: a ColorSequence property with a single value that is not itself a
ColorSequence. -/
def BadProperty (q : Property) : Prop :=
  q.typ = Ty.colorSequence.code ∧ ∃ a, q.value = [a] ∧ ∀ ks, a ≠ .value (.colorSequence ks)

/-- The properties among the elements. -/
def propertiesOf : List Element → List Property
  | [] => []
  | .property q :: l => q :: propertiesOf l
  | _ :: l => propertiesOf l

/-- The instances among the elements. -/
def childrenOf : List Element → List Instance
  | [] => []
  | .instance d :: l => d :: childrenOf l
  | _ :: l => childrenOf l

/-- The last reference among the elements. -/
def refOf : List Element → Option Bytes
  | [] => none
  | .ref s :: l => (refOf l).or (some s)
  | _ :: l => refOf l

end Spec

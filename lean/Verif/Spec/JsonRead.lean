import Verif.Json.Model
import Verif.Spec.JsonForm
/-!
# Specification vocabulary: the instances described by JSON
-/
namespace Spec
open Go Rbxfile Json

/-- The value is an object with a class name: it describes an instance. -/
def describes (j : JVal) : Bool :=
  match index j (str "class_name") with
  | some (.str _) => true
  | _ => false

/-- The reference of an object, empty if it has none or one that counts as empty. -/
def referenceIn (j : JVal) : Bytes :=
  match index j (str "reference") with
  | some (.str r) => if isEmptyReference r then [] else r
  | _ => []

/-- The flag of an object. -/
def serviceIn (j : JVal) : Bool :=
  match index j (str "is_service") with
  | some (.bool b) => b
  | _ => false

/-- No two descriptions have the same reference, unless it is empty. -/
def DescribedApart (js : List JVal) : Prop :=
  js.Pairwise fun a b => referenceIn a ≠ [] → referenceIn a ≠ referenceIn b

/-- The value `o` that the description `j` of a property stands for, if it stands for one: `j` is an object with a type and a value;
if the type is Reference, the value must be a text, and what it stands for is the instance with this reference; otherwise it is what
the value stands for (`JsonForm.Reads`). -/
def ReadProperty (O : Overflow) (target : Bytes → Option Nat) (j : JVal) (o : Option (Value Nat)) : Prop :=
  (∃ t v, index j (str "type") = some (.str t) ∧ index j (str "value") = some v ∧
    ((JsonForm.typeOf t = .reference ∧ ∃ r, v = .str r ∧ o = some (.reference (target r))) ∨
     (JsonForm.typeOf t = .reference ∧ (∀ r, v ≠ .str r) ∧ o = none) ∨
     (JsonForm.typeOf t ≠ .reference ∧ ∀ x, o = some x ↔ JsonForm.Reads O JsonForm.typeOf (JsonForm.typeOf t) v x))) ∨
  ((¬ ∃ t v, index j (str "type") = some (.str t) ∧ index j (str "value") = some v) ∧ o = none)

/-- The instance `a` is what `j` describes. -/
structure ReadInstance (O : Overflow) (target : Bytes → Option Nat) (j : JVal) (a : Inst Nat) : Prop where
  className : index j (str "class_name") = some (.str a.className)
  reference : a.reference = referenceIn j
  isService : a.isService = serviceIn j
  children : a.children = []
  properties : ∀ ps, index j (str "properties") = some (.obj ps) →
    (∀ n d, Map.get? ps n = some d → ReadProperty O target d (a.properties.get? n)) ∧
    ∀ n, Map.get? ps n = none → a.properties.get? n = none
  without : (∀ ps, index j (str "properties") ≠ some (.obj ps)) → a.properties = []

end Spec

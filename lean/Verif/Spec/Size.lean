import Verif.Rbxfile.Values
/-!
# Specification vocabulary: how large a tree is

A measure of what a program has to store for a tree: everything in it that has to be written in a file for it to be read.
-/
namespace Spec
open Go Rbxfile

/-- The size of a value: one, and one for every byte of text and every keypoint in it.  A shared string counts as one,
because values share its content. -/
def valueSize {ρ : Type} : Value ρ → Nat
  | .string s => 1 + s.length
  | .binaryString s => 1 + s.length
  | .protectedString s => 1 + s.length
  | .content s => 1 + s.length
  | .font family _ _ cached => 1 + family.length + cached.length
  | .numberSequence ks => 1 + ks.length
  | .colorSequence ks => 1 + ks.length
  | .optional _ (some v) => 1 + valueSize v
  | _ => 1

/-- The size of an instance: four, the sizes of its property values, and eight for every child. -/
def instSize {ρ : Type} (i : Inst ρ) : Nat :=
  4 + (i.properties.map fun nv => valueSize nv.2).sum + 8 * i.children.length

/-- The size of a tree: the instances, eight for every one at the root, and for every entry of the metadata eight and the
lengths of its key and its value. -/
def treeSize {ρ : Type} (h : Heap ρ) (root : Root ρ) : Nat :=
  (h.map fun pi => instSize pi.2).sum + 8 * root.instances.length +
    (root.metadata.map fun kv => 8 + kv.1.length + kv.2.length).sum

end Spec

import Verif.Props.XmlTree
import Verif.Props.EncodeExamples
import Verif.Rbxfile.ValueEq
/-!
# C41 to C49, C65, C66: concrete cases

A tree that meets the hypotheses of the theorems of `Verif.Props.XmlTree`, and values for which the full properties
fail.
-/
namespace Props
open Go Rbxfile Rbxlx Spec

/-- The functions of the Go library, with a counter for random bytes. -/
def exP : Params where
  F := goFloat
  hash := exHash
  gen := genOf counter
  attempts := 8
  it := Iter.rev
  srt := Sorter.insertion

/-- One instance with one property. -/
def oneHeap (v : Value Nat) : Heap Nat := [(0, { className := str "A", properties := [(str "P", v)] })]

/-- The property of one instance after encoding and decoding. -/
def oneBack (v : Value Nat) : Res (Option (Value Nat)) :=
  encode exP {} (oneHeap v) { instances := [0] } >>= fun x =>
  decode goFloat false x.1 >>= fun y => .ok ((y.1.get? 0).bind fun i => i.properties.get? (str "P"))

/-- A property is decoded. -/
example : oneBack (.int 5) = .ok (some (.int 5)) := by decide +kernel

/-- C41: a ProtectedString that contains "]]>" results in a document that the parser rejects. -/
theorem C41_cdata_fails : ∃ b h1, encode exP {} (oneHeap (.protectedString (str "a]]>b"))) { instances := [0] } = .ok (b, h1) ∧
    readFrom b = .err (.other "unexpected ']]>'") := by
  refine ⟨_, _, rfl, ?_⟩
  decide +kernel

/-- C42: a ProtectedString that contains "]]>" cannot be read back. -/
theorem C42_cdata_fails : oneBack (.protectedString (str "a]]>b")) = .err (.other "unexpected ']]>'") := by
  decide +kernel

/-- C42: carriage returns are not kept. -/
theorem C42_cr_fails : oneBack (.string (str "a\r\nb\rc")) = .ok (some (.string (str "a\nb\nc"))) := by decide +kernel

/-- C44: a BrickColor is decoded as an Int. -/
theorem C44_brickcolor_fails : oneBack (.brickColor 5) = .ok (some (.int 5)) := by decide +kernel

/-- C44: a token from `2 ^ 31` on is decoded as another one. -/
theorem C44_token_fails : oneBack (.token 0x80000000) = .ok (some (.token 0x7fffffff)) := by decide +kernel

/-- C45: the direction of a Ray is lost; it is that of the origin instead. -/
theorem C45_ray_fails : oneBack (.ray ⟨0, 0, 0⟩ ⟨0x3f800000, 0, 0⟩) = .ok (some (.ray ⟨0, 0, 0⟩ ⟨0, 0, 0⟩)) := by
  decide +kernel

/-- C45: the smallest number above 1 is decoded as 1 in a NumberRange. -/
theorem C45_range_fails : oneBack (.numberRange 0x3f800001 0) = .ok (some (.numberRange 0x3f800000 0)) := by
  decide +kernel

/-- C66: the smallest number above 1 of type Double is decoded as 1. -/
theorem C66_double_fails : oneBack (.double 0x3ff0000000000001) = .ok (some (.double 0x3ff0000000000000)) := by
  decide +kernel

/-- C66: the weight and style of a Font are lost if its weight exceeds that of an `int16`. -/
theorem C66_font_fails : oneBack (.font (str "x") 40000 1 (str "y")) = .ok (some (.font (str "x") 32767 0 (str "y"))) := by
  decide +kernel

/-- C66: a Font with an unknown style is lost. -/
theorem C66_style_fails : oneBack (.font (str "x") 40 7 (str "y")) = .ok (some (.font [] 0 0 [])) := by decide +kernel

/-- C66: the content of an Optional is lost unless it is a CFrame. -/
theorem C66_optional_fails : oneBack (.optional .int (some (.int 3))) = .ok (some (.optional .int none)) := by
  decide +kernel

/-! ## A tree -/

/-- A tree with a value of every type that is kept, a reference forwards and one outside, a shared string used twice,
a reference used twice. -/
def xHeap : Heap Nat :=
  [(7, { className := str "Workspace", reference := str "R1", isService := true, children := [3, 5],
         properties := [(str "Name", .string (str "a<b>&\"c\" ]]>\n")), (str "Bin", .binaryString [0, 1, 255]),
           (str "Source", .protectedString (str "  if a < b then\n\tprint()\n  end")), (str "Image", .content (str "rbxasset://x")),
           (str "Flag", .bool true), (str "Int", .int (-5)), (str "Float", .float 0x3dcccccd), (str "Double", .double 0x3ff8000000000000)] }),
   (3, { className := str "Part", reference := str "R1",
         properties := [(str "U", .udim ⟨0x3f000000, -3⟩), (str "U2", .udim2 ⟨0, 1⟩ ⟨0x80000000, -1⟩), (str "Ray", .ray ⟨1, 2, 3⟩ ⟨1, 2, 3⟩),
           (str "Faces", .faces true false true false true false), (str "Axes", .axes false true true),
           (str "C", .color3 ⟨0x3f800000, 0, 0x7f800000⟩), (str "V2", .vector2 ⟨0x3fc00000, 0xbfc00000⟩),
           (str "V3", .vector3 ⟨0x7fc00001, 5, 0xff800000⟩), (str "CF", .cframe ⟨1, 2, 3⟩ ⟨0x3f800000, 0, 0, 0, 0x3f800000, 0, 0, 0, 0x3f800000⟩),
           (str "T", .token 7), (str "Ref", .reference (some 5)), (str "Shared", .sharedString [1, 2])] }),
   (5, { className := str "Part", children := [4],
         properties := [(str "Shared", .sharedString [1, 2]), (str "Ref", .reference (some 99)), (str "Nil", .reference none),
           (str "V3i", .vector3int16 1 (-1) 3), (str "V2i", .vector2int16 (-32768) 5),
           (str "NS", .numberSequence [⟨0, 0x3f800000, 0⟩, ⟨0x3f800000, 0x40000000, 0x3f000000⟩]),
           (str "CS", .colorSequence [⟨0, ⟨0x3f800000, 0, 0⟩, 0⟩, ⟨0x3f800000, ⟨0, 0x3f000000, 0⟩, 0⟩]),
           (str "NR", .numberRange 0x3f800000 0x40000000), (str "Rect", .rect ⟨0, 1⟩ ⟨2, 3⟩)] }),
   (4, { className := str "Folder",
         properties := [(str "PP", .physicalProperties true 1 2 3 4 5), (str "PQ", .physicalProperties false 0 0 0 0 0),
           (str "C8", .color3uint8 1 128 255), (str "I64", .int64 (-9223372036854775808)), (str "Opt", .optional .cframe (some (.cframe ⟨1, 2, 3⟩ ⟨1, 2, 3, 4, 5, 6, 7, 8, 9⟩))),
           (str "OptN", .optional .int none), (str "Id", .uniqueId 1 2 3), (str "Font", .font (str "rbxasset://fonts") 400 1 [])] }),
   (99, { className := str "Part" })]

/-- The root of the tree. -/
def xRoot : Root Nat := { instances := [7], metadata := [(str "b", str "x & y"), (str "a", [])] }

/-- The instances reachable from the root. -/
def xList : Map Nat (Inst Nat) := xHeap.take 4

/-- Encoded and decoded. -/
def xBack : Res (Heap Nat × Root Nat) := encode exP {} xHeap xRoot >>= fun x => decode goFloat false x.1

theorem xTrees : Trees xHeap xRoot.instances xList :=
  ⟨.cons (below := (xList.drop 1)) (rest := []) rfl
    (.cons (below := []) (rest := xList.drop 2) rfl .nil
      (.cons (below := xList.drop 3) (rest := []) rfl (.cons (below := []) rfl .nil .nil) .nil))
    .nil, by unfold Map.Ok; decide⟩

/-- A fact about all the values of the tree. -/
theorem xValues {Q : Bytes → Value Nat → Prop} (hq : ∀ x ∈ xList, ∀ y ∈ x.2.properties, Q y.1 y.2) :
    ∀ x ∈ xList, ∀ n v, x.2.properties.get? n = some v → Q n v :=
  fun x hx _ _ hv => hq x hx _ (Map.mem_of_get? hv)

theorem counter_length (k : Nat) : (counter k).length = 16 := by simp [counter]

/-- No ProtectedString with "]]>". -/
def noEnd : Value Nat → Bool
  | .protectedString s => !hasCDataEnd s
  | _ => true

theorem xWritable : XmlWritable exP {} xHeap xRoot xList where
  go := ⟨rfl, counter, counter_length, rfl⟩
  trees := xTrees
  properties := by
    have : ∀ x ∈ xList, (x.2.properties.map Prod.fst).Nodup := by decide +kernel
    exact this
  cdata := by
    have h : ∀ x ∈ xList, ∀ y ∈ x.2.properties, noEnd y.2 = true := by decide +kernel
    intro x hx n s hs
    have := xValues (Q := fun _ v => noEnd v = true) h x hx n _ hs
    show ¬ [93#8, 93#8, 62#8] <:+: s
    rw [← hasCDataEnd_iff]
    simpa [noEnd] using this
  pre := by simp
  indent := by simp
  root := rfl

theorem xEncodable : XmlEncodable exP {} xHeap xRoot xList where
  writable := xWritable
  metadata := by
    have : (xRoot.metadata.map Prod.fst).Nodup := by decide +kernel
    exact this
  references := by
    have h : ∀ y ∈ xHeap, 13#8 ∉ y.2.reference := by decide +kernel
    exact fun p a ha => h _ (Map.mem_of_get? ha)
  names := xValues (Q := fun n _ => 13#8 ∉ n) (by decide +kernel)
  collisions := by
    have h : ∀ x ∈ xList, ∀ y ∈ x.2.properties, ∀ s, y.2 = .sharedString s → s = [1#8, 2#8] := by
      simp [xList, xHeap, List.forall_mem_cons, -List.mem_cons, -Prod.forall]
    have hu : ∀ s, UsedShared xList s → s = [1#8, 2#8] := by
      rintro s ⟨x, hx, n, hn⟩
      exact h x hx _ (Map.mem_of_get? hn) s rfl
    exact fun s s' h h' _ => by rw [hu s h, hu s' h']

theorem xSupported : ∀ x ∈ xList, ∀ n v, x.2.properties.get? n = some v → XmlSupported v := by
  refine xValues (Q := fun _ v => XmlSupported v) ?_
  simp [xList, xHeap, List.forall_mem_cons, -List.mem_cons, -Prod.forall, XmlSupported, Value.type]

/-- The tree can be encoded. -/
theorem xEncoded : ∃ b h1, encode exP {} xHeap xRoot = .ok (b, h1) := by
  have h : (match encode exP {} xHeap xRoot with | .ok _ => true | _ => false) = true := by decide +kernel
  cases he : encode exP {} xHeap xRoot with
  | ok x => exact ⟨x.1, x.2, rfl⟩
  | _ => rw [he] at h; cases h

/-- A property of a decoded instance. -/
def propOf (x : Heap Nat × Root Nat) (p : Nat) (n : String) : Option (Value Nat) :=
  (x.1.get? p).bind fun i => i.properties.get? (str n)

/-- Some of the tree after decoding. -/
example : (match xBack with
    | .ok x => decide ((x.1.map fun y => y.2.children) = [[1, 2], [], [3], []]) && decide (x.2.instances = [0]) &&
      decide (propOf x 0 "Name" = some (.string (str "a<b>&\"c\" ]]>\n"))) &&
      decide (propOf x 1 "Ref" = some (.reference (some 2))) && decide (propOf x 2 "Ref" = some (.reference none)) &&
      decide (propOf x 1 "V3" = some (.vector3 ⟨0x7fc00000, 5, 0xff800000⟩))
    | _ => false) = true := by decide +kernel

/-- The theorems apply. -/
example : ∃ b h1, encode exP {} xHeap xRoot = .ok (b, h1) ∧ (∃ h' root' φ, decode goFloat true b = .ok (h', root') ∧
    Corresp xList φ h' ∧ ∀ p inst, (p, inst) ∈ xList → ∃ q inst', φ p = some q ∧ h'.get? q = some inst' ∧ ∀ n,
      (∀ v, inst.properties.get? n = some v → ∃ w, inst'.properties.get? n = some w ∧ XmlKept φ v w) ∧
      (inst.properties.get? n = none → inst'.properties.get? n = none)) := by
  obtain ⟨b, h1, h⟩ := xEncoded
  exact ⟨b, h1, h, C66_values_partial exP {} xHeap xRoot xList true xEncodable b h1 h rfl xSupported⟩

/-- C65: the hypotheses about the source of references and the targets of references are met. -/
example : (∀ x ∈ xList, ∀ m q, x.2.properties.get? m = some (.reference (some q)) → (xHeap.get? q).isSome) := by
  have h : ∀ x ∈ xList, ∀ y ∈ x.2.properties, ∀ q, y.2 = .reference (some q) → (xHeap.get? q).isSome := by
    simp [xList, List.forall_mem_cons, xHeap, -List.mem_cons, -Prod.forall, Map.get?]
  exact fun x hx m q hq => h x hx _ (Map.mem_of_get? hq) q rfl

end Props

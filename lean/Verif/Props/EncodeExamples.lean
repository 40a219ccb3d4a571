import Verif.Props.Encode
/-!
# C11 to C18: concrete cases

A tree that meets the hypotheses of the theorems of `Verif.Props.Encode`, and trees for which the
full C12 and C15 fail.
-/
namespace Props
open Go Rbxfile Rbxl Spec

/-- A service with two children: the first refers to the second, both have the same shared string,
the second refers to an instance outside, and has a child; property `M` has mixed types. -/
def exHeap : Heap Nat :=
  [(7, { className := [87#8], isService := true, children := [3, 5],
         properties := [([78#8], .string [87#8])] }),
   (3, { className := [80#8],
         properties := [([78#8], .binaryString [97#8]), ([82#8], .reference (some 5)),
           ([83#8], .sharedString [1#8, 2#8]), ([77#8], .int 3),
           ([79#8], .optional .bool (some (.bool true)))] }),
   (5, { className := [80#8], children := [4],
         properties := [([83#8], .sharedString [1#8, 2#8]), ([82#8], .reference (some 99)),
           ([77#8], .bool true), ([85#8], .uniqueId 1 2 3)] }),
   (4, { className := [70#8] }),
   (99, { className := [80#8] })]

/-- The root of the example. -/
def exRoot : Root Nat := { instances := [7], metadata := [([97#8], [98#8])] }

/-- The instances reachable from the root. -/
def exList : Map Nat (Inst Nat) := exHeap.take 4

/-- A stand-in for the hash of shared strings. -/
def exHash (s : Bytes) : Bytes := (s ++ List.replicate 16 0#8).take 16

/-- A check of `SmallChunks` by computation. -/
def smallB (x : Res FormatModel) : Bool :=
  match x with
  | .ok f => f.chunks.all fun c => match c.body.payload with
    | .ok e => decide (e.length < 2 ^ 32)
    | _ => true
  | _ => true

theorem small_of_smallB {it srt hash place} {h : Heap Nat} {root : Root Nat}
    (hb : smallB (codecEncode it srt hash place h root) = true) :
    SmallChunks it srt hash place h root := by
  intro f hf c hc e he
  rw [hf] at hb
  have := List.all_eq_true.1 hb c hc
  simpa [he] using this

theorem exTrees : Trees exHeap exRoot.instances exList :=
  ⟨.cons (below := (exList.drop 1)) (rest := []) rfl
    (.cons (below := []) (rest := exList.drop 2) rfl .nil
      (.cons (below := exList.drop 3) (rest := []) rfl (.cons (below := []) rfl .nil .nil) .nil))
    .nil, by unfold Map.Ok; decide⟩

theorem exSupported : ∀ x ∈ exList, ∀ n v, x.2.properties.get? n = some v → Supported v := by
  have : ∀ x ∈ exList, ∀ y ∈ x.2.properties, Supported y.2 := by
    simp [exList, exHeap, List.forall_mem_cons, -List.mem_cons, -Prod.forall, Supported,
      interleavedTy, Value.type]
  intro x hx n v hv
  exact this x hx _ (Map.mem_of_get? hv)

theorem exUsed (s : Bytes) (h : UsedShared exList s) : s = [1#8, 2#8] := by
  have : ∀ x ∈ exList, ∀ y ∈ x.2.properties, ∀ s, y.2 = .sharedString s → s = [1#8, 2#8] := by
    simp [exList, exHeap, List.forall_mem_cons, -List.mem_cons, -Prod.forall]
  obtain ⟨x, hx, n, hn⟩ := h
  exact this x hx _ (Map.mem_of_get? hn) s rfl

theorem exEncodable (place : Bool) : Encodable Iter.id Sorter.insertion exHash place exHeap exRoot
    exList where
  trees := exTrees
  metadata := by unfold Map.Ok; decide
  supported := exSupported
  collisions s s' h h' _ := by rw [exUsed s h, exUsed s' h']
  small := small_of_smallB (by cases place <;> decide +kernel)

/-- The bytes of a result. -/
def bytesOf : Res Bytes → Bytes
  | .ok b => b
  | _ => []

theorem ok_bytesOf {x : Res Bytes} (h : x.isOk) : x = .ok (bytesOf x) := by
  cases x <;> first | rfl | exact absurd h id

theorem exEncoded (place : Bool) : ∃ b, encodeRoot LZ4.stored false Iter.id Sorter.insertion exHash
    place exHeap exRoot = .ok b :=
  ⟨_, ok_bytesOf (by cases place <;> decide +kernel)⟩

/-- The example meets the hypotheses of C11, C12, C13, C14, C15, C16 and C18. -/
example (quat : Quat) (place : Bool) : ∃ b stats h' root' φ,
    encodeRoot LZ4.stored false Iter.id Sorter.insertion exHash place exHeap exRoot = .ok b ∧
    decodeRoot LZ4.stored (fun _ => 0) quat false b = ⟨[], [], stats, .ok (.tree h' root')⟩ ∧
    Corresp exList φ h' ∧ root'.instances.map some = exRoot.instances.map φ := by
  obtain ⟨b, hb⟩ := exEncoded place
  obtain ⟨stats, h', root', φ, h1, h2, h3, _⟩ := C11_same_tree _ LZ4.stored_lossless (fun _ => 0)
    quat false false _ _ _ place _ _ _ (exEncodable place) b hb
  exact ⟨b, stats, h', root', φ, hb, h1, h2, h3⟩

/-- In the example the name of instance 3 (a binary string) is written; so are its references and
shared strings. -/
example : Written true (valuesOf (classmates exList [80#8]) [78#8]) ∧
    (∀ v ∈ valuesOf (classmates exList [80#8]) [82#8], v.type = .reference) ∧
    (∀ v ∈ valuesOf (classmates exList [80#8]) [83#8], v.type = .sharedString) :=
  ⟨⟨by decide, .string, by decide, by decide⟩, by decide, by decide⟩

/-- In the example property `M` has mixed types, and instance 3 lacks property `U`. -/
example : (.int 3 : Value Nat) ∈ valuesOf (classmates exList [80#8]) [77#8] ∧
    (.bool true : Value Nat) ∈ valuesOf (classmates exList [80#8]) [77#8] ∧
    (.uniqueId 1 2 3 : Value Nat) ∈ valuesOf (classmates exList [80#8]) [85#8] :=
  ⟨.head _, .tail _ (.head _), .head _⟩

/-- A property in a result of decoding. -/
def decodedProp (out : Res Out) (id : Id) (name : Bytes) : Option (Value Id) :=
  match out with
  | .ok (.tree h _) => (h.get? id).bind fun i => i.properties.get? name
  | _ => none

/-- A tree of one instance with an optional number. -/
def optHeap : Heap Nat :=
  [(0, { className := [80#8], properties := [([79#8], .optional .int (some (.int 5)))] })]

/-- The full C12 fails for optional values of interleaved types: the property is lost. -/
theorem C12_optional_int_fails : ∃ b out,
    encodeRoot LZ4.stored false Iter.id Sorter.insertion exHash true optHeap
      { instances := [0] } = .ok b ∧
    decodeRoot LZ4.stored (fun _ => 0) (fun _ _ _ _ => default) false b = out ∧
    out.result.isOk ∧ (decodedProp out.result 0 [79#8]).isNone = true := by
  refine ⟨_, _, ok_bytesOf (by decide +kernel), rfl, ?_, ?_⟩ <;> decide +kernel

/-- Two instances of a class, the second of which has a nil reference and a shared string. -/
def missingHeap : Heap Nat :=
  [(0, { className := [80#8] }),
   (1, { className := [80#8],
         properties := [([82#8], .reference none), ([83#8], .sharedString [1#8])] })]

/-- Whether a value is a reference to `id`. -/
def isRefTo (id : Id) : Option (Value Id) → Bool
  | some (.reference (some p)) => p == id
  | _ => false

/-- Whether a value is the shared string `s`. -/
def isShared (s : Bytes) : Option (Value Id) → Bool
  | some (.sharedString t) => t == s
  | _ => false

/-- The full C15 fails for references and shared strings: an instance without them gets a reference
to the first instance of the file and the first shared string of the file. -/
theorem C15_missing_reference_fails : ∃ b out,
    encodeRoot LZ4.stored false Iter.id Sorter.insertion exHash true missingHeap
      { instances := [0, 1] } = .ok b ∧
    decodeRoot LZ4.stored (fun _ => 0) (fun _ _ _ _ => default) false b = out ∧
    isRefTo 0 (decodedProp out.result 0 [82#8]) = true ∧
    isShared [1#8] (decodedProp out.result 0 [83#8]) = true := by
  refine ⟨_, _, ok_bytesOf (by decide +kernel), rfl, ?_, ?_⟩ <;> decide +kernel

/-- In this tree instance 0 lacks the reference and the shared string of its class. -/
example : (∃ inst, (0, inst) ∈ missingHeap ∧ inst.properties.get? [82#8] = none ∧ inst.properties.get? [83#8] = none) ∧
    (∃ r, .reference r ∈ valuesOf (classmates missingHeap [80#8]) [82#8]) ∧
    (∀ w ∈ valuesOf (classmates missingHeap [80#8]) [82#8], w.type = .reference) ∧
    (∃ s, .sharedString s ∈ valuesOf (classmates missingHeap [80#8]) [83#8]) ∧
    (∀ w ∈ valuesOf (classmates missingHeap [80#8]) [83#8], w.type = .sharedString) := by
  refine ⟨⟨_, .head _, rfl, rfl⟩, ⟨_, .head _⟩, ?_, ⟨_, .head _⟩, ?_⟩ <;> decide

end Props

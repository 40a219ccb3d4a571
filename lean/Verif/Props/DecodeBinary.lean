import Verif.Props.Codec
import Verif.Rbxl.DecodeGroups
import Verif.Rbxl.DecodeTree
import Verif.Rbxfile.ValueEq
/-!
# C68 and C69: decoding a binary file builds what its chunks say

For every file that the decoder accepts, `f` is the list of chunks it was read as (`Decoder.decode`), `(h, root)` the
tree that `Decoder.Decode` returns.  `cs` are the chunks before the END chunk.  The vocabulary (`declared`, `linksOf`,
`childrenIn`, `Gives`, `Reads`, `pairsOf`) is in `Verif/Spec/DecodeBinary.lean`.
-/
namespace Props
open Go Rbxfile Rbxl Spec

/-- A file whose chunks are `f`, decoded to the tree `(h, root)`. -/
structure DecodesTo (lz : LZ4) (slack : Bytes → Nat) (quat : Quat) (noXML : Bool) (b : Bytes) (f : FormatModel)
    (h : Heap Id) (root : Root Id) : Prop where
  chunks : ∃ ws s, decodeFile lz slack noXML false b = (ws, s, .ok (.model f))
  tree : (decodeRoot lz slack quat noXML b).result = .ok (.tree h root)

theorem DecodesTo.codec {lz slack quat noXML b f h root} (d : DecodesTo lz slack quat noXML b f h root) :
    ∃ ws, codecDecode quat f = (ws, .ok (h, root)) := by
  obtain ⟨ws, s, e⟩ := d.chunks
  have := d.tree
  simp only [decodeRoot, e] at this
  rcases hc : codecDecode quat f with ⟨ws', r⟩
  rw [hc] at this
  rcases r with ⟨h', root'⟩ | _ | _ <;> simp at this
  obtain ⟨rfl, rfl⟩ := this
  exact ⟨ws', rfl⟩

/-- Every tree that `Decoder.Decode` returns comes from the chunks of a file. -/
theorem decodesTo_of_tree {lz slack quat noXML b h root}
    (e : (decodeRoot lz slack quat noXML b).result = .ok (.tree h root)) :
    ∃ f, DecodesTo lz slack quat noXML b f h root := by
  rcases hd : decodeFile lz slack noXML false b with ⟨ws, s, r⟩
  cases r with
  | panic => simp [decodeRoot, hd] at e
  | err _ => simp [decodeRoot, hd] at e
  | ok r =>
    cases r with
    | xml c => simp [decodeRoot, hd] at e
    | model f => exact ⟨f, ⟨ws, s, hd⟩, e⟩

theorem flatMap_unique {α β : Type} {f : α → List β} : ∀ {l : List α}, (l.flatMap f).Nodup → ∀ {a b : α} {x : β},
    a ∈ l → b ∈ l → x ∈ f a → x ∈ f b → a = b := by
  intro l
  induction l with
  | nil => intro _ a b x ha; cases ha
  | cons c l ih =>
    intro hn a b x ha hb hxa hxb
    rw [List.flatMap_cons, List.nodup_append] at hn
    rcases List.mem_cons.1 ha with rfl | ha' <;> rcases List.mem_cons.1 hb with rfl | hb'
    · rfl
    · exact absurd rfl (hn.2.2 x hxa x (List.mem_flatMap.2 ⟨b, hb', hxb⟩))
    · exact absurd rfl (hn.2.2 x hxb x (List.mem_flatMap.2 ⟨a, ha', hxa⟩))
    · exact ih hn.2.1 ha' hb' hxa hxb

theorem flatMap_nodup {α β : Type} {f : α → List β} {l : List α} (h : (l.flatMap f).Nodup) {a : α} (ha : a ∈ l) :
    (f a).Nodup := by
  induction l with
  | nil => cases ha
  | cons c l ih =>
    rw [List.flatMap_cons, List.nodup_append] at h
    rcases List.mem_cons.1 ha with rfl | ha
    · exact h.1
    · exact ih h.2.1 ha

theorem map_unique {α β : Type} {f : α → β} : ∀ {l : List α}, (l.map f).Nodup → ∀ {a b : α},
    a ∈ l → b ∈ l → f a = f b → a = b := by
  intro l
  induction l with
  | nil => intro _ a b ha; cases ha
  | cons c l ih =>
    intro hn a b ha hb e
    rw [List.map_cons, List.nodup_cons] at hn
    rcases List.mem_cons.1 ha with rfl | ha' <;> rcases List.mem_cons.1 hb with rfl | hb'
    · rfl
    · exact absurd (List.mem_map.2 ⟨b, hb', e.symm⟩) hn.1
    · exact absurd (List.mem_map.2 ⟨a, ha', e⟩) hn.1
    · exact ih hn.2 ha' hb' e

/-- The class table and the INST chunks. -/
theorem DecodesTo.facts {lz slack quat noXML b f h root} (d : DecodesTo lz slack quat noXML b f h root) :
    (∀ k pos g, f.groupLookup.get? k = some (pos, g) → g.classID = k ∧ g ∈ instChunks (beforeEnd f.chunks)) ∧
    (∀ g ∈ instChunks (beforeEnd f.chunks), ∃ pos, f.groupLookup.get? g.classID = some (pos, g)) ∧
    (∀ g ∈ instChunks (beforeEnd f.chunks), g.ids.Nodup) ∧
    ∃ st, st.heap = h ∧ st.root = root ∧ DecInv quat f (beforeEnd f.chunks) st := by
  obtain ⟨ws, s, e⟩ := d.chunks
  obtain ⟨ws', e'⟩ := d.codec
  obtain ⟨g1, g2⟩ := decodeFile_groups e
  obtain ⟨i1, -, -⟩ := C20_instance_ids e'
  obtain ⟨c1, -⟩ := C20_class_ids e'
  have a1 : ∀ k pos g, f.groupLookup.get? k = some (pos, g) → g.classID = k ∧ g ∈ instChunks (beforeEnd f.chunks) :=
    fun k pos g hk => ⟨(g1 k pos g hk).1, mem_instChunks.2 (g1 k pos g hk).2⟩
  have a3 : ∀ g ∈ instChunks (beforeEnd f.chunks), g.ids.Nodup := fun g hg =>
    flatMap_nodup (f := fun g : InstChunk => g.ids) i1 hg
  refine ⟨a1, ?_, a3, DecInv.decode (fun k pos g hk => a3 g (a1 k pos g hk).2) e'⟩
  intro g hg
  obtain ⟨ch, hm, hb⟩ := mem_instChunks.1 hg
  obtain ⟨⟨pos, g'⟩, hg'⟩ := Option.isSome_iff_exists.1 (g2 ch hm g hb)
  obtain ⟨b1, b2⟩ := a1 _ _ _ hg'
  have := map_unique c1 b2 hg b1
  subst this
  exact ⟨pos, hg'⟩

/-- The instances of the tree are exactly those that the INST chunks declare; each has the class of its chunk, is a
service exactly if the chunk marks it, and has no reference of its own. -/
theorem C68_instances {lz slack quat noXML b f h root} (d : DecodesTo lz slack quat noXML b f h root) :
    h.map Prod.fst = declared (beforeEnd f.chunks) ∧ (declared (beforeEnd f.chunks)).Nodup ∧
    ∀ ch ∈ beforeEnd f.chunks, ∀ g, ch.body = .inst g → ∀ (i : Nat) id, g.ids[i]? = some id →
      ∃ inst, h.get? id = some inst ∧ inst.className = g.className ∧ inst.reference = [] ∧
        (inst.isService = true ↔ g.isService = true ∧ g.getService[i]? = some 1#8) := by
  obtain ⟨ws', e'⟩ := d.codec
  obtain ⟨i1, -, -⟩ := C20_instance_ids e'
  obtain ⟨-, -, a3, st, rfl, rfl, hi⟩ := d.facts
  refine ⟨hi.keys, hi.nodup, ?_⟩
  intro ch hm g hb i id hid
  have hg := mem_instChunks.2 ⟨ch, hm, hb⟩
  have hdec : id ∈ declared (beforeEnd f.chunks) := by
    rw [declared_eq, flatMap_ids]
    exact List.mem_flatMap.2 ⟨g, hg, List.mem_of_getElem? hid⟩
  obtain ⟨inst, hinst⟩ := Option.isSome_iff_exists.1 (Map.get?_isSome.2 (hi.keys ▸ hdec))
  obtain ⟨ch', hm', g', hb', i', hi', q1, q2, q3⟩ := hi.cls id inst hinst
  have hg' := mem_instChunks.2 ⟨ch', hm', hb'⟩
  have := flatMap_unique (f := fun g : InstChunk => g.ids) i1 hg hg' (List.mem_of_getElem? hid) (List.mem_of_getElem? hi')
  subst this
  have hl : i < g.ids.length := by
    by_cases hl : i < g.ids.length
    · exact hl
    · rw [List.getElem?_eq_none (by omega)] at hid; cases hid
  have : i = i' := (List.getElem?_inj hl (a3 g hg)).1 (hid.trans hi'.symm)
  subst this
  refine ⟨inst, hinst, q1, q2, ?_⟩
  rw [q3]
  simp

/-- The properties of an instance are those that the PROP chunks of its class give to its position, the last chunk
counting if several give a property of the same name. -/
theorem C68_properties {lz slack quat noXML b f h root} (d : DecodesTo lz slack quat noXML b f h root) :
    ∀ ch ∈ beforeEnd f.chunks, ∀ g, ch.body = .inst g → ∀ (i : Nat) id inst, g.ids[i]? = some id → h.get? id = some inst →
    ∀ name v, inst.properties.get? name = some v ↔
      ∃ j a, Gives (beforeEnd f.chunks) j g.classID name a ∧
        Reads quat (declared ((beforeEnd f.chunks).take j)) (sharedOf ((beforeEnd f.chunks).take j)) a i v ∧
        ∀ j' a', j < j' → ¬ Gives (beforeEnd f.chunks) j' g.classID name a' := by
  obtain ⟨ws', e'⟩ := d.codec
  obtain ⟨i1, -, -⟩ := C20_instance_ids e'
  obtain ⟨a1, a2, a3, st, rfl, rfl, hi⟩ := d.facts
  intro ch hm g hb i id inst hid hinst name v
  have hg := mem_instChunks.2 ⟨ch, hm, hb⟩
  obtain ⟨pos, hlook⟩ := a2 g hg
  have hmem := List.mem_of_getElem? hid
  have same : ∀ k pos' g', f.groupLookup.get? k = some (pos', g') → id ∈ g'.ids → k = g.classID ∧ g' = g := by
    intro k pos' g' hk hm'
    obtain ⟨b1, b2⟩ := a1 _ _ _ hk
    have := flatMap_unique (f := fun g : InstChunk => g.ids) i1 hg b2 hmem hm'
    subst this
    exact ⟨b1.symm, rfl⟩
  have hl : i < g.ids.length := by
    by_cases hl : i < g.ids.length
    · exact hl
    · rw [List.getElem?_eq_none (by omega)] at hid; cases hid
  rw [hi.props id inst hinst name v]
  constructor
  · rintro ⟨j, cls, a, pos', g', i', h1, h2, h3, h4, h5⟩
    obtain ⟨rfl, rfl⟩ := same _ _ _ h2 (List.mem_of_getElem? h3)
    have : i = i' := (List.getElem?_inj hl (a3 g' hg)).1 (hid.trans h3.symm)
    subst this
    refine ⟨j, a, h1, h4, fun j' a' hlt hgv => ?_⟩
    exact h5 j' _ a' pos g' hlt hgv hlook hmem
  · rintro ⟨j, a, h1, h4, h5⟩
    refine ⟨j, g.classID, a, pos, g, i, h1, hlook, hid, h4, ?_⟩
    intro j' cls' a' pos' g' hlt hgv hk hm'
    obtain ⟨rfl, rfl⟩ := same _ _ _ hk hm'
    exact h5 j' a' hlt hgv

/-- The roots are the instances linked to -1 and the children of an instance those linked to it, both in the order of
the PRNT chunks; a link counts if the child, and the parent unless it is -1, are declared before the chunk. -/
theorem C68_links {lz slack quat noXML b f h root} (d : DecodesTo lz slack quat noXML b f h root) :
    root.instances = childrenIn (linksOf (beforeEnd f.chunks)) (-1) ∧
    ∀ id inst, h.get? id = some inst → inst.children = childrenIn (linksOf (beforeEnd f.chunks)) id := by
  obtain ⟨-, -, -, st, rfl, rfl, hi⟩ := d.facts
  exact ⟨hi.roots, hi.children⟩

theorem foldl_set_get (l : List (Bytes × Bytes)) : ∀ (m : Map Bytes Bytes) (k v : Bytes),
    (l.foldl (fun (m : Map Bytes Bytes) kv => m.set kv.1 kv.2) m).get? k = some v ↔
      (∃ a c, l = a ++ (k, v) :: c ∧ k ∉ c.map Prod.fst) ∨ (k ∉ l.map Prod.fst ∧ m.get? k = some v) := by
  induction l with
  | nil => intro m k v; simp
  | cons p l ih =>
    intro m k v
    obtain ⟨k', v'⟩ := p
    rw [List.foldl_cons, ih]
    simp only [Map.get?_set]
    constructor
    · rintro (⟨a, c, rfl, hc⟩ | ⟨hk, he⟩)
      · exact .inl ⟨(k', v') :: a, c, rfl, hc⟩
      · split at he
        · rename_i e
          simp only [Option.some.injEq] at he
          subst he; subst e
          exact .inl ⟨[], l, rfl, hk⟩
        · rename_i e
          exact .inr ⟨by simp only [List.map_cons, List.mem_cons, not_or]; exact ⟨e, hk⟩, he⟩
    · rintro (⟨a, c, he, hc⟩ | ⟨hk, he⟩)
      · cases a with
        | nil =>
          simp only [List.nil_append, List.cons.injEq, Prod.mk.injEq] at he
          obtain ⟨⟨rfl, rfl⟩, rfl⟩ := he
          exact .inr ⟨hc, by simp⟩
        | cons x a =>
          simp only [List.cons_append, List.cons.injEq] at he
          exact .inl ⟨a, c, he.2, hc⟩
      · simp only [List.map_cons, List.mem_cons, not_or] at hk
        exact .inr ⟨hk.2, by rw [if_neg hk.1]; exact he⟩

/-- The metadata are the pairs of the META chunks, the last pair of a key counting. -/
theorem C68_metadata {lz slack quat noXML b f h root} (d : DecodesTo lz slack quat noXML b f h root) (k v : Bytes) :
    root.metadata.get? k = some v ↔
      ∃ l r, pairsOf (beforeEnd f.chunks) = l ++ (k, v) :: r ∧ k ∉ r.map Prod.fst := by
  obtain ⟨-, -, -, st, rfl, rfl, hi⟩ := d.facts
  rw [hi.metadata, foldl_set_get]
  simp [Map.get?]

/-- C69: the decoded instances that can be reached from the root are trees if and only if no two links of the PRNT chunks
that are connected with the root have the same child. -/
theorem C69_trees_iff {lz slack quat noXML b f h root} (d : DecodesTo lz slack quat noXML b f h root) :
    (∃ l, Trees h root.instances l) ↔ LinkedOnce (linksOf (beforeEnd f.chunks)) := by
  obtain ⟨hr, hc⟩ := C68_links d
  obtain ⟨hk, -, -⟩ := C68_instances d
  obtain ⟨-, -, -, st, rfl, rfl, hi⟩ := d.facts
  have hm : (-1 : Id) ∉ declared (beforeEnd f.chunks) := fun h => hi.range _ h rfl
  constructor
  · rintro ⟨l, hl⟩
    exact linkedOnce_of_trees hr hc hl
  · refine trees_of_linkedOnce hm (fun l hl => (linksOf_mem hl).1) hr ?_
    intro x hx
    obtain ⟨inst, hx⟩ := Option.isSome_iff_exists.1 (Map.get?_isSome.2 (hk ▸ hx))
    exact ⟨inst, hx, hc x inst hx⟩

/-- C69: in particular they are trees if the PRNT chunks name no child twice. The full property, for every accepted file,
is false: `C69_trees_fails`. -/
theorem C69_trees_partial {lz slack quat noXML b f h root} (d : DecodesTo lz slack quat noXML b f h root)
    (hn : ((linksOf (beforeEnd f.chunks)).map Prod.fst).Nodup) : ∃ l, Trees h root.instances l :=
  (C69_trees_iff d).2 (linkedOnce_of_nodup hn)

/-! ### examples -/

deriving instance DecidableEq for Out

/-- A file with two Parts, their Link properties, and the given parent links. -/
def linkFile (children parents : List (BitVec 32)) : Bytes :=
  match encodeFile LZ4.stored true (codecEx [0, 1] children parents) with
  | .ok b => b
  | _ => []

/-- The Part 1 in the Part 0. -/
theorem linkFile_ok : DecodesTo LZ4.stored (fun _ => 0) (fun _ _ _ _ => default) true (linkFile [1, 0] [0, -1])
    { codecEx [0, 1] [1, 0] [0, -1] with chunks := (codecEx [0, 1] [1, 0] [0, -1]).chunks.map (Chunk.back true) }
    [(0, { className := str "Part", children := [1], properties := [(str "Link", .reference (some 0))] }),
      (1, { className := str "Part", properties := [(str "Link", .reference none)] })] { instances := [0] } := by
  refine ⟨⟨(decodeFile LZ4.stored (fun _ => 0) true false (linkFile [1, 0] [0, -1])).1,
    (decodeFile LZ4.stored (fun _ => 0) true false (linkFile [1, 0] [0, -1])).2.1, ?_⟩, ?_⟩
  · decide +kernel
  · decide +kernel

/-- The theorems say of this file what one expects: the Part 1 has the Part 0 as its parent, and so on. -/
example : linksOf (beforeEnd ((codecEx [0, 1] [1, 0] [0, -1]).chunks.map (Chunk.back true))) = [(1, 0), (0, -1)] := by
  decide +kernel
example : ∃ l, Trees (ρ := Id) [(0, { className := str "Part", children := [1], properties := [(str "Link", .reference (some 0))] }),
      (1, { className := str "Part", properties := [(str "Link", .reference none)] })] [(0 : Id)] l :=
  C69_trees_partial linkFile_ok (by decide +kernel)

/-- The links of this file name a child twice, but they are not connected with the root. -/
def strayHeap : Heap Id :=
  [(0, { className := str "Part", properties := [(str "Link", .reference (some 0))] }),
    (1, { className := str "Part", children := [1, 1], properties := [(str "Link", .reference none)] })]

theorem strayFile : DecodesTo LZ4.stored (fun _ => 0) (fun _ _ _ _ => default) true (linkFile [0, 1, 1] [-1, 1, 1])
    { codecEx [0, 1] [0, 1, 1] [-1, 1, 1] with chunks := (codecEx [0, 1] [0, 1, 1] [-1, 1, 1]).chunks.map (Chunk.back true) }
    strayHeap { instances := [0] } := by
  refine ⟨⟨(decodeFile LZ4.stored (fun _ => 0) true false (linkFile [0, 1, 1] [-1, 1, 1])).1,
    (decodeFile LZ4.stored (fun _ => 0) true false (linkFile [0, 1, 1] [-1, 1, 1])).2.1, ?_⟩, ?_⟩
  · decide +kernel
  · decide +kernel

example : LinkedOnce (linksOf (beforeEnd ((codecEx [0, 1] [0, 1, 1] [-1, 1, 1]).chunks.map (Chunk.back true)))) :=
  (C69_trees_iff strayFile).1 ⟨_, .cons rfl .nil .nil, by simp [Map.Ok]⟩

/-- The heap of a file that links the Part 0 to the root and to itself. -/
def loopHeap : Heap Id :=
  [(0, { className := str "Part", children := [0], properties := [(str "Link", .reference (some 0))] }),
    (1, { className := str "Part", properties := [(str "Link", .reference none)] })]

theorem loopFile : DecodesTo LZ4.stored (fun _ => 0) (fun _ _ _ _ => default) true (linkFile [0, 0] [-1, 0])
    { codecEx [0, 1] [0, 0] [-1, 0] with chunks := (codecEx [0, 1] [0, 0] [-1, 0]).chunks.map (Chunk.back true) }
    loopHeap { instances := [0] } := by
  refine ⟨⟨(decodeFile LZ4.stored (fun _ => 0) true false (linkFile [0, 0] [-1, 0])).1,
    (decodeFile LZ4.stored (fun _ => 0) true false (linkFile [0, 0] [-1, 0])).2.1, ?_⟩, ?_⟩
  · decide +kernel
  · decide +kernel

theorem loopHeap_no_forest : ∀ (n : Nat) (l : Map Id (Inst Id)), l.length ≤ n → ¬ Forest loopHeap [0] l := by
  intro n
  induction n with
  | zero =>
    intro l hl hf
    cases hf
    simp at hl
  | succ n ih =>
    intro l hl hf
    cases hf with
    | cons hg hb hr =>
      cases hg
      simp only [List.length_cons, List.length_append] at hl
      exact ih _ (by omega) hb

/-- Of every accepted file: the decoded instances that can be reached from the root are trees. False of the code: a PRNT
chunk that lists a child twice can make an instance its own descendant, and following the children of the returned tree
then never ends. -/
theorem C69_trees_fails : ¬ ∀ (lz : LZ4) (slack : Bytes → Nat) (quat : Quat) (noXML : Bool) (b : Bytes) (f : FormatModel)
    (h : Heap Id) (root : Root Id), DecodesTo lz slack quat noXML b f h root → ∃ l, Trees h root.instances l := by
  intro hall
  obtain ⟨l, hl, -⟩ := hall _ _ _ _ _ _ _ _ loopFile
  exact loopHeap_no_forest l.length l (Nat.le_refl _) hl

end Props

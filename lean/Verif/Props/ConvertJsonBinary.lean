import Verif.Props.ConvertJson
import Verif.Props.EncodeExamples
/-!
# C112: converting a JSON document to a binary file

`l` is the list of instances in the JSON, `l.filter describes` its elements that describe an instance. `lst` are the instances read
from them: by C98, they are trees exactly if the descriptions have different references. `Rbxl.encodeRoot … h root` is `Encoder.Encode`
and `Rbxl.decodeRoot` is `Decoder.Decode` of the binary package.
-/
namespace Props
open Go Rbxfile Spec Json

section
variable {O : Overflow} {it : Iter} {j : JVal} {h : Heap Nat} {root : Root Nat} {l : List JVal}
  (hr : rootFrom O it j = .ok (some (h, root))) (hl : index j (str "instances") = some (.arr l))
  (hd : DescribedApart (l.filter describes))
include hr hl hd

/-- C112: a root read from JSON is encoded as a binary file without compression, unless there are `BadOptionals` as in C19. -/
theorem C112_converts_iff (lz : Rbxl.LZ4) (it' : Iter) (srt : Sorter) (hash : Bytes → Bytes) (place : Bool) (hn : h.length < 2 ^ 31) :
    ∃ lst, Trees h root.instances lst ∧ lst.map Prod.fst = root.instances ∧
      ((∃ b, Rbxl.encodeRoot lz true it' srt hash place h root = .ok b) ↔
        ¬ ∃ cls n, BadOptionals (valuesOf (classmates lst cls) n)) := by
  obtain ⟨⟨lst, hf, hk⟩, hb⟩ := C98_finite hr
  obtain ⟨lst', ht⟩ := (C98_trees_iff hr hl).2 hd
  cases forest_unique hf ht.1
  have hget := forest_mem hf
  refine ⟨lst, ht, hk, ?_⟩
  have htyped : ∀ p a, h.get? p = some a → ∀ n t v, a.properties.get? n = some (.optional t (some v)) → v.type = t := by
    obtain ⟨ps, s, hs, rfl, rfl⟩ := rootFrom_list hl hr
    exact fun p a ha => (final_made hs ha).1.typed
  have hlen := Rbxl.Trees.length_le ht
  exact C19_uncompressed_iff lz it' srt hash place h root lst ht (by omega) fun x hx n t v hv => htyped x.1 x.2 (hget x.1 x.2 hx) n t v hv

/-- C112: the binary file has, in order, one instance for each description: with the class name, without children, a service if a place
is written and the description says so. A property whose values in the instances of the class have one type is there in each of them:
in those that are described with it, it has this value up to `Kept`. All others are lost: if the values do not have one type, if no
instance of the class has the property, or for unique ids in models (`Written`). A reference leads to the instance of the description
with this reference, and to none if there is no such description. Assumed are Optionals that the decoder can read (`hopt`, as in C06),
chunks below 4 GiB and no collision of hashes. -/
theorem C112_same_instances (hok : ∀ d ∈ l, ∀ ps, index d (str "properties") = some (.obj ps) → Map.Ok ps)
    {lst : Map Nat (Inst Nat)} (ht : Trees h root.instances lst)
    (lz : Rbxl.LZ4) (hlz : lz.Lossless) (slack : Bytes → Nat) (quat : Rbxl.Quat) (noXML u : Bool) (it' : Iter)
    (srt : Sorter) (hash : Bytes → Bytes) (place : Bool)
    (hopt : ∀ p a, h.get? p = some a → ∀ n t o, a.properties.get? n = some (.optional t o) → interleavedTy t = false)
    (hc : ∀ s s', UsedShared h s → UsedShared h s' → hash s = hash s' → s = s')
    (hsm : Rbxl.SmallChunks it' srt hash place h root) (b : Bytes) (hb : Rbxl.encodeRoot lz u it' srt hash place h root = .ok b) :
    ∃ (target : Bytes → Option Nat) (φ : Nat → Option Rbxl.Id) (stats : Rbxl.Stats) (h' : Heap Rbxl.Id) (root' : Root Rbxl.Id),
      Rbxl.decodeRoot lz slack quat noXML b = ⟨[], [], stats, .ok (.tree h' root')⟩ ∧
      (∀ k, root'.metadata.get? k = none) ∧
      (∀ r p q, target r = some p → φ p = some q → ∃ d ∈ l.filter describes, referenceIn d = r) ∧
      List.Forall₂ (fun d q => ∃ a inst', ReadInstance O target d a ∧ h'.get? q = some inst' ∧
        (referenceIn d ≠ [] → ∃ p, target (referenceIn d) = some p ∧ φ p = some q) ∧
        inst'.className = a.className ∧ inst'.isService = (place && a.isService) ∧ inst'.children = [] ∧
        ∀ n, (¬ Written place (valuesOf (classmates lst a.className) n) → inst'.properties.get? n = none) ∧
          (Written place (valuesOf (classmates lst a.className) n) →
            ∃ w, inst'.properties.get? n = some w ∧ ∀ v, a.properties.get? n = some v → Kept φ v w))
        (l.filter describes) root'.instances := by
  obtain ⟨⟨lst', hf, hk⟩, hch⟩ := C98_finite hr
  cases forest_unique hf ht.1
  have hget := forest_mem hf
  obtain ⟨hmeta, -, target, htar, hall, -⟩ := C98_read hr hl hd hok
  have htyped : ∀ p a, h.get? p = some a → ∀ n t v, a.properties.get? n = some (.optional t (some v)) → v.type = t := by
    obtain ⟨ps, s, hs, rfl, rfl⟩ := rootFrom_list hl hr
    exact fun p a ha => (final_made hs ha).1.typed
  have hs : ∀ x ∈ lst, ∀ n v, x.2.properties.get? n = some v → Supported v := by
    rintro ⟨p, a⟩ hx n v hv
    have hg := hget p a hx
    unfold Supported
    split
    · rename_i t o
      refine ⟨hopt p a hg n t o hv, ?_⟩
      rintro w rfl
      exact htyped p a hg n t w hv
    · trivial
  have sub : ∀ s, UsedShared lst s → UsedShared h s := by
    rintro s ⟨⟨p, a⟩, hy, n, hv⟩
    exact ⟨(p, a), Map.mem_of_get? (hget p a hy), n, hv⟩
  obtain ⟨stats, h', root', d, h1, h2, -, h3, h4, h5⟩ := Rbxl.roundtrip lz hlz slack quat noXML u it' srt hash
    place h root lst ht (by rw [hmeta]; exact Map.ok_nil) hs (fun s s' a a' => hc s s' (sub s a) (sub s' a')) hsm b hb
  refine ⟨target, Rbxl.decodedId lst, stats, h', root', h1, fun k => ?_, ?_, ?_⟩
  · rw [h4, hmeta]; rfl
  · intro r p q hp hq
    have hmem : p ∈ lst.map Prod.fst := (h2.defined p).1 (by rw [hq]; rfl)
    rw [hk] at hmem
    obtain ⟨k, k1, rfl⟩ := List.getElem_of_mem hmem
    have k2 : k < (l.filter describes).length := by rw [hall.length_eq]; exact k1
    obtain ⟨a, ha, hra⟩ := (List.forall₂_iff_get.1 hall).2 k k2 k1
    simp only [List.get_eq_getElem] at ha hra
    obtain ⟨-, a', ha', rfl⟩ := (htar r _).1 hp
    rw [ha] at ha'
    cases ha'
    exact ⟨_, List.getElem_mem k2, hra.reference.symm⟩
  · have hlen : root'.instances.length = root.instances.length := by
      have := congrArg List.length h3
      simpa using this
    refine List.forall₂_iff_get.2 ⟨hall.length_eq.trans hlen.symm, fun k k1 k2 => ?_⟩
    have k3 : k < root.instances.length := by rw [← hlen]; exact k2
    obtain ⟨a, ha, hra⟩ := (List.forall₂_iff_get.1 hall).2 k k1 k3
    simp only [List.get_eq_getElem] at ha hra ⊢
    have hmem : (root.instances[k], a) ∈ lst := by
      have : root.instances[k] ∈ lst.map Prod.fst := by rw [hk]; exact List.getElem_mem k3
      obtain ⟨⟨p, b⟩, hpb, e⟩ := List.mem_map.1 this
      have e : p = root.instances[k] := e
      have := hget p b hpb
      rw [e, ha] at this
      cases this
      rw [← e]; exact hpb
    obtain ⟨q, inst', a1, a2, a3, -, a5, a6, a7⟩ := h5 _ _ hmem
    have hq : q = root'.instances[k] := by
      have := congrArg (·[k]?) h3
      simp only [List.getElem?_map, List.getElem?_eq_getElem k2, List.getElem?_eq_getElem k3, Option.map_some] at this
      rw [a1] at this
      simpa using this.symm
    subst hq
    refine ⟨a, inst', hra, a2, fun hne => ?_, a3, a5, ?_, fun n => ⟨(a7 n).2, fun hw => ?_⟩⟩
    · exact ⟨root.instances[k], (htar _ _).2 ⟨hne, a, ha, hra.reference⟩, a1⟩
    · have : a.children = [] := (hch _ a ha).1
      rw [this] at a6
      simpa using a6
    · obtain ⟨w, w1, w2⟩ := (a7 n).1 hw
      exact ⟨w, w1, w2.1⟩

end

/-! ### An example: the list of C98 -/

set_option maxRecDepth 20000 in
/-- It is converted, without compression, to a place with two instances. -/
example (O : Overflow) (slack : Bytes → Nat) (quat : Rbxl.Quat) :
    ∃ b, Rbxl.encodeRoot Rbxl.LZ4.stored true .id Sorter.insertion exHash true listHeap { instances := [0, 2] } = .ok b ∧
    ∃ stats h' root', Rbxl.decodeRoot Rbxl.LZ4.stored slack quat false b = ⟨[], [], stats, .ok (.tree h' root')⟩ ∧
      root'.instances.length = 2 := by
  have hr : rootFrom O .id (readRoot readList) = .ok (some (listHeap, { instances := [0, 2] })) :=
    rootFrom_readRoot O .id readList rfl rfl
  have hf : readList.filter describes = [readList[0], readList[2]] := rfl
  have hd : DescribedApart (readList.filter describes) := by
    unfold DescribedApart
    rw [hf]
    refine .cons ?_ (.cons nofun .nil)
    intro b hb
    simp only [List.mem_singleton] at hb
    subst hb
    intro _
    decide +kernel
  have hall : ∀ p a, listHeap.get? p = some a → ∀ y ∈ a.properties, (∀ s, y.2 ≠ .sharedString s) ∧
      ∀ t o, y.2 = .optional t o → t = .bool := by
    intro p a ha
    have := Map.mem_of_get? ha
    simp only [listHeap, List.mem_cons, List.not_mem_nil, or_false, Prod.mk.injEq] at this
    rcases this with ⟨-, rfl⟩ | ⟨-, rfl⟩ | ⟨-, rfl⟩
    · intro y hy
      simp only [List.mem_cons, List.not_mem_nil, or_false] at hy
      rcases hy with rfl | rfl <;> exact ⟨nofun, nofun⟩
    · nofun
    · intro y hy
      simp only [List.mem_cons, List.not_mem_nil, or_false] at hy
      rcases hy with rfl | rfl
      · exact ⟨nofun, fun t o e => by cases e; rfl⟩
      · exact ⟨nofun, nofun⟩
  have hsm : Rbxl.SmallChunks .id Sorter.insertion exHash true listHeap { instances := [0, 2] } := small_of_smallB (by decide +kernel)
  have he := ok_bytesOf (x := Rbxl.encodeRoot Rbxl.LZ4.stored true .id Sorter.insertion exHash true listHeap { instances := [0, 2] })
    (by decide +kernel)
  obtain ⟨lst, ht, -, -⟩ := C112_converts_iff hr rfl hd Rbxl.LZ4.stored .id Sorter.insertion exHash true (by decide)
  obtain ⟨_, _, stats, h', root', hdec, -, -, hfa⟩ := C112_same_instances hr rfl hd (by
    intro d hd ps hps
    simp only [readList, List.mem_cons, List.not_mem_nil, or_false] at hd
    rcases hd with rfl | rfl | rfl
    · cases hps; unfold Map.Ok; decide +kernel
    · cases hps
    · cases hps; unfold Map.Ok; decide +kernel) ht Rbxl.LZ4.stored Rbxl.LZ4.stored_lossless slack quat false true .id
    Sorter.insertion exHash true
    (fun p a ha n t o hv => by rw [(hall p a ha _ (Map.mem_of_get? hv)).2 t o rfl]; rfl) (by
      rintro s s' ⟨y, hy, n, hv⟩ -
      have hok : listHeap.get? y.1 = some y.2 := Map.get?_of_mem (by unfold Map.Ok; decide) hy
      exact absurd rfl ((hall _ _ hok _ (Map.mem_of_get? hv)).1 s)) hsm _ he
  exact ⟨_, he, stats, h', root', hdec, by rw [← hfa.length_eq, hf]; rfl⟩

end Props

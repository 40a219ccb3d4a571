import Verif.Props.ConvertBinary
import Verif.Props.JsonRead
/-!
# C111: converting a JSON document to an XML file

`l` is the list of instances in the JSON, `l.filter describes` its elements that describe an instance. `Rbxlx.encode P L h root` is
`Encoder.Encode` and `Rbxlx.decode` is `Decoder.Decode` of the XML package.
-/
namespace Props
open Go Rbxfile Spec Json
open Rbxlx (Params Layout)

section
variable {O : Overflow} {it : Iter} {j : JVal} {h : Heap Nat} {root : Root Nat} {l : List JVal}
  (hr : rootFrom O it j = .ok (some (h, root))) (hl : index j (str "instances") = some (.arr l))
  (hd : DescribedApart (l.filter describes))
include hr hl hd

/-- C111: a root read from JSON is encoded as XML, and what is written is accepted by the parser, if the random source does not repeat
itself (`Fresh`, as in C29) and no ProtectedString contains the end of a CDATA section (C42). -/
theorem C111_converts (P : Params) (L : Layout) (hg : GoParams P) (hpre : ∀ x ∈ L.pre, XmlSpace x)
    (hind : ∀ x ∈ L.indent, XmlSpace x) (hroot : L.excludeRoot = false)
    (hcd : ∀ p a, h.get? p = some a → ∀ n s, a.properties.get? n = some (.protectedString s) → ¬ str "]]>" <:+: s) :
    ∃ lst, Trees h root.instances lst ∧ lst.map Prod.fst = root.instances ∧
      (Fresh P.gen (Rbxlx.demand lst) P.attempts → ∃ x h1, Rbxlx.encode P L h root = .ok (x, h1) ∧
      ∃ doc, Rbxlx.readFrom x = .ok (some doc, L.suffix) ∧ doc.head.startName = str "roblox") := by
  obtain ⟨⟨lst, hf, hk⟩, hb⟩ := C98_finite hr
  obtain ⟨lst', ht⟩ := (C98_trees_iff hr hl).2 hd
  cases forest_unique hf ht.1
  have hget := forest_mem hf
  refine ⟨lst, ht, hk, fun hfr => ?_⟩
  obtain ⟨x, h1, he⟩ := C65_returns P L h root lst hg hfr ht (by
    rintro ⟨p, inst⟩ hx m q hq
    exact (hb p inst (hget p inst hx)).2.2 m q hq)
  refine ⟨x, h1, he, C41_accepted_partial P L h root lst ⟨hg, ht, ?_, ?_, hpre, hind, hroot⟩ x h1 he⟩
  · rintro ⟨p, inst⟩ hx
    exact (hb p inst (hget p inst hx)).2.1
  · rintro ⟨p, inst⟩ hx n s hs
    exact hcd p inst (hget p inst hx) n s hs

/-- C111: the XML file has, in order, one instance for each description: with the class name (up to line ends), without children, and
with the properties that the description has and no others, those with a value that XML can store (`XmlSupported`) having the value
that is described up to `XmlKept`. A reference leads to the instance of the description with this reference, and to none if there is
no such description. The flag of services is lost. Assumed are no carriage returns in references and names, and no collision of hashes. -/
theorem C111_same_instances (hok : ∀ d ∈ l, ∀ ps, index d (str "properties") = some (.obj ps) → Map.Ok ps)
    (P : Params) (L : Layout) (discard : Bool) (hg : GoParams P)
    (hpre : ∀ x ∈ L.pre, XmlSpace x) (hind : ∀ x ∈ L.indent, XmlSpace x) (hroot : L.excludeRoot = false)
    (href : P.excludeReferent = false)
    (hcd : ∀ p a, h.get? p = some a → ∀ n s, a.properties.get? n = some (.protectedString s) → ¬ str "]]>" <:+: s)
    (hrefs : ∀ p a, h.get? p = some a → 13#8 ∉ a.reference)
    (hnames : ∀ p a, h.get? p = some a → ∀ n v, a.properties.get? n = some v → 13#8 ∉ n)
    (hc : ∀ s s', UsedShared h s → UsedShared h s' → P.hash s = P.hash s' → s = s')
    (x : Bytes) (h1 : Heap Nat) (he : Rbxlx.encode P L h root = .ok (x, h1)) :
    ∃ (target : Bytes → Option Nat) (φ : Nat → Option Nat) (h' : Heap Nat) (root' : Root Nat),
      Rbxlx.decode P.F discard x = .ok (h', root') ∧ root'.metadata = [] ∧
      (∀ r p q, target r = some p → φ p = some q → ∃ d ∈ l.filter describes, referenceIn d = r) ∧
      List.Forall₂ (fun d q => ∃ a inst', ReadInstance O target d a ∧ h'.get? q = some inst' ∧
        (referenceIn d ≠ [] → ∃ p, target (referenceIn d) = some p ∧ φ p = some q) ∧
        inst'.className = normNewlines a.className ∧ inst'.isService = false ∧ inst'.children = [] ∧
        ∀ n, (a.properties.get? n = none → inst'.properties.get? n = none) ∧
          ∀ v, a.properties.get? n = some v → XmlSupported v →
            ∃ w, inst'.properties.get? n = some w ∧ XmlKept φ v w) (l.filter describes) root'.instances := by
  obtain ⟨⟨lst, hf, hk⟩, hb⟩ := C98_finite hr
  obtain ⟨lst', ht⟩ := (C98_trees_iff hr hl).2 hd
  cases forest_unique hf ht.1
  have hget := forest_mem hf
  obtain ⟨hmeta, -, target, htar, hall, -⟩ := C98_read hr hl hd hok
  have hw : XmlEncodable P L h root lst := by
    refine ⟨⟨hg, ht, ?_, ?_, hpre, hind, hroot⟩, by rw [hmeta]; exact Map.ok_nil, hrefs, ?_, ?_⟩
    · rintro ⟨p, inst⟩ hx
      exact (hb p inst (hget p inst hx)).2.1
    · rintro ⟨p, inst⟩ hx n s hs
      exact hcd p inst (hget p inst hx) n s hs
    · rintro ⟨p, inst⟩ hx n v hv
      exact hnames p inst (hget p inst hx) n v hv
    · intro s s' hs hs'
      have sub : ∀ s, UsedShared lst s → UsedShared h s := by
        rintro s ⟨y, hy, n, hv⟩
        obtain ⟨p, inst⟩ := y
        exact ⟨(p, inst), Map.mem_of_get? (hget p inst hy), n, hv⟩
      exact hc s s' (sub s hs) (sub s' hs')
  obtain ⟨h2, root2, hdec, D⟩ := Rbxlx.xml_roundtrip hw.to discard he
  refine ⟨target, Rbxlx.decodedAs lst, h2, root2, hdec, ?_, ?_, ?_⟩
  · have hm := D.metadata (by rw [hmeta]; nofun)
    rw [hmeta] at hm
    cases e : root2.metadata with
    | nil => rfl
    | cons y ys =>
      have := hm y.1
      rw [e] at this
      simp [Map.get?] at this
  · intro r p q hp hq
    have hmem : p ∈ lst.map Prod.fst := (D.corresp.defined p).1 (by rw [hq]; rfl)
    rw [hk] at hmem
    obtain ⟨k, k1, rfl⟩ := List.getElem_of_mem hmem
    have k2 : k < (l.filter describes).length := by rw [hall.length_eq]; exact k1
    obtain ⟨a, ha, hra⟩ := (List.forall₂_iff_get.1 hall).2 k k2 k1
    simp only [List.get_eq_getElem] at ha hra
    obtain ⟨-, a', ha', rfl⟩ := (htar r _).1 hp
    rw [ha] at ha'
    cases ha'
    exact ⟨_, List.getElem_mem k2, hra.reference.symm⟩
  · have hroots := D.roots
    have hlen : root2.instances.length = root.instances.length := by
      have := congrArg List.length hroots
      simpa using this
    refine List.forall₂_iff_get.2 ⟨hall.length_eq.trans hlen.symm, fun k k1 k2 => ?_⟩
    have k3 : k < root.instances.length := by rw [← hlen]; exact k2
    obtain ⟨a, ha, hra⟩ := (List.forall₂_iff_get.1 hall).2 k k1 k3
    simp only [List.get_eq_getElem] at ha hra ⊢
    have hmem : (root.instances[k], a) ∈ lst := by
      have : root.instances[k] ∈ lst.map Prod.fst := by rw [hk]; exact List.getElem_mem k3
      obtain ⟨⟨p, b⟩, hpb, e⟩ := List.mem_map.1 this
      have e : p = root.instances[k] := e
      have := hget p b hpb
      rw [e, ha] at this
      cases this
      rw [← e]; exact hpb
    obtain ⟨q, inst', r, a1, a2, a3, a4, a5, a6, a7, a8, a9⟩ := D.insts _ _ hmem
    have hq : q = root2.instances[k] := by
      have := congrArg (·[k]?) hroots
      simp only [List.getElem?_map, List.getElem?_eq_getElem k2, List.getElem?_eq_getElem k3, Option.map_some] at this
      rw [a1] at this
      simpa using this.symm
    subst hq
    refine ⟨a, inst', hra, a2, fun hne => ?_, a5, a7, ?_, fun n => ⟨fun h0 => ?_, fun v hv hs => ?_⟩⟩
    · exact ⟨root.instances[k], (htar _ _).2 ⟨hne, a, ha, hra.reference⟩, a1⟩
    · have : a.children = [] := (hb _ a ha).1
      rw [this] at a8
      simpa using a8
    · rw [a9, h0]; rfl
    · obtain ⟨w, w1, w2⟩ := Rbxlx.kept_final discard (Rbxlx.decodedAs lst) v hs
      refine ⟨w, ?_, w2⟩
      rw [a9, hv, href, hg.floats]
      exact w1

end

/-! ### An example: the list of C98 -/

/-- What is read from the list. -/
def listHeap : Heap Nat :=
  [(0, { className := str "Part", reference := str "A", isService := true,
         properties := [(str "Name", .string (str "x")), (str "Next", .reference (some 2))] }),
   (1, { className := [], reference := str "C" }),
   (2, { className := str "Part", reference := str "B",
         properties := [(str "Maybe", .optional .bool (some (.bool true))), (str "Next", .reference (some 1))] })]

theorem list_demand {lst : Map Nat (Inst Nat)} (hl : Trees listHeap [0, 2] lst) : Rbxlx.demand lst ≤ 7 := by
  obtain ⟨hf, -⟩ := hl
  cases hf with
  | cons h1 h2 h3 =>
    cases h1
    cases h2
    cases h3 with
    | cons h1 h2 h3 => cases h1; cases h2; cases h3; decide

set_option maxRecDepth 20000 in
/-- It is converted, and what the file has is what the list describes. -/
example (O : Overflow) : ∃ x h1, Rbxlx.encode exP {} listHeap { instances := [0, 2] } = .ok (x, h1) ∧
    ∃ h' root', Rbxlx.decode goFloat false x = .ok (h', root') ∧ root'.instances.length = 2 := by
  have hr : rootFrom O .id (readRoot readList) = .ok (some (listHeap, { instances := [0, 2] })) :=
    rootFrom_readRoot O .id readList rfl rfl
  have hf : readList.filter describes = [readList[0], readList[2]] := rfl
  have hd : DescribedApart (readList.filter describes) := by
    unfold DescribedApart
    rw [hf]
    refine .cons ?_ (.cons nofun .nil)
    intro b hb
    simp only [List.mem_singleton] at hb
    subst hb
    intro _
    decide +kernel
  have hg : GoParams exP := ⟨rfl, counter, counter_length, rfl⟩
  have hall : ∀ p a, listHeap.get? p = some a → 13#8 ∉ a.reference ∧ ∀ y ∈ a.properties, 13#8 ∉ y.1 ∧ (∀ s, y.2 ≠ .protectedString s) ∧
      ∀ s, y.2 ≠ .sharedString s := by
    intro p a ha
    have := Map.mem_of_get? ha
    simp only [listHeap, List.mem_cons, List.not_mem_nil, or_false, Prod.mk.injEq] at this
    rcases this with ⟨-, rfl⟩ | ⟨-, rfl⟩ | ⟨-, rfl⟩
    · refine ⟨by decide +kernel, fun y hy => ?_⟩
      simp only [List.mem_cons, List.not_mem_nil, or_false] at hy
      rcases hy with rfl | rfl <;> exact ⟨by decide +kernel, nofun, nofun⟩
    · exact ⟨by decide +kernel, nofun⟩
    · refine ⟨by decide +kernel, fun y hy => ?_⟩
      simp only [List.mem_cons, List.not_mem_nil, or_false] at hy
      rcases hy with rfl | rfl <;> exact ⟨by decide +kernel, nofun, nofun⟩
  have hcd : ∀ p a, listHeap.get? p = some a → ∀ n s, a.properties.get? n = some (.protectedString s) → ¬ str "]]>" <:+: s :=
    fun p a ha n s hs => absurd rfl (((hall p a ha).2 _ (Map.mem_of_get? hs)).2.1 s)
  obtain ⟨lst, ht, -, h⟩ := C111_converts hr rfl hd exP {} hg (by decide) (by decide) rfl hcd
  obtain ⟨x, h1, he, -⟩ := h (Fresh_mono (counter_fresh 7 (by omega)) (list_demand ht) (Nat.le_refl _))
  obtain ⟨_, _, h', root', hdec, -, -, hfa⟩ := C111_same_instances hr rfl hd (by
    intro d hd ps hps
    simp only [readList, List.mem_cons, List.not_mem_nil, or_false] at hd
    rcases hd with rfl | rfl | rfl
    · cases hps; unfold Map.Ok; decide +kernel
    · cases hps
    · cases hps; unfold Map.Ok; decide +kernel) exP {} false hg (by decide) (by decide) rfl rfl hcd (fun p a ha => (hall p a ha).1)
    (fun p a ha n v hv => ((hall p a ha).2 _ (Map.mem_of_get? hv)).1) (by
      rintro s s' ⟨y, hy, n, hv⟩ -
      have hok : listHeap.get? y.1 = some y.2 := Map.get?_of_mem (by unfold Map.Ok; decide) hy
      exact absurd rfl (((hall _ _ hok).2 _ (Map.mem_of_get? hv)).2.2 s)) x h1 he
  exact ⟨x, h1, he, h', root', hdec, by rw [← hfa.length_eq, hf]; rfl⟩

end Props

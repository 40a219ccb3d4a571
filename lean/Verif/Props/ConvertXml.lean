import Verif.Props.DecodeXml
import Verif.Props.XmlDecode
import Verif.Props.Encode
import Verif.Props.EncodeExamples
import Verif.Props.EncodeNoPanic
/-!
# C71: converting an XML file to a binary file

`decode F discard s` is `Decoder.Decode` of the XML package, `encodeRoot … h root` is `Encoder.Encode` and `decodeRoot`
is `Decoder.Decode` of the binary package.
-/
namespace Props
open Go Rbxfile Rbxl Spec

theorem ok_foldl_set {κ ν : Type} [DecidableEq κ] : ∀ (l : List (κ × ν)) (m : Map κ ν), m.Ok →
    (l.foldl (fun (m : Map κ ν) a => m.set a.1 a.2) m).Ok := by
  intro l
  induction l with
  | nil => intro m hm; exact hm
  | cons a l ih => intro m hm; exact ih _ (Map.ok_set hm _ _)

theorem map_ext_keys {κ ν : Type} [DecidableEq κ] {l m : Map κ ν} (hk : l.map Prod.fst = m.map Prod.fst)
    (hn : (m.map Prod.fst).Nodup) (hl : ∀ k v, (k, v) ∈ l → m.get? k = some v) : l = m := by
  induction m generalizing l with
  | nil => simpa using hk
  | cons a m ih =>
    obtain ⟨k, v⟩ := a
    cases l with
    | nil => simp at hk
    | cons b l =>
      obtain ⟨k', v'⟩ := b
      simp only [List.map_cons, List.cons.injEq] at hk
      obtain ⟨rfl, hk⟩ := hk
      rw [List.map_cons, List.nodup_cons] at hn
      have h0 := hl k' v' List.mem_cons_self
      simp only [Map.get?, if_true, Option.some.injEq] at h0
      subst h0
      congr 1
      refine ih hk hn.2 ?_
      intro k v0 hm
      have hne : k' ≠ k := by
        rintro rfl
        exact hn.1 (hk ▸ List.mem_map.2 ⟨_, hm, rfl⟩)
      have := hl k v0 (List.mem_cons_of_mem _ hm)
      simpa only [Map.get?, if_neg hne] using this

theorem forest_get {h : Heap Nat} {ps : List Nat} {l : Map Nat (Inst Nat)} (f : Forest h ps l) :
    ∀ p inst, (p, inst) ∈ l → h.get? p = some inst := by
  induction f with
  | nil => intro p i hp; cases hp
  | cons h1 _ _ ih1 ih2 =>
    intro p i hp
    rcases List.mem_cons.1 hp with e | hp
    · cases e; exact h1
    · rcases List.mem_append.1 hp with hp | hp
      · exact ih1 p i hp
      · exact ih2 p i hp

theorem canonType_not_optional (name : Bytes) : (Rbxlx.getCanonType name).1 ≠ .optional := by
  have aux : ∀ x ∈ Rbxlx.canonTypes, x.2 ≠ .optional := by decide +kernel
  unfold Rbxlx.getCanonType
  simp only
  intro h
  cases hg : Map.get? Rbxlx.canonTypes (if (str "optional").isPrefixOf (Rbxlx.toLower name) = true
      then (Rbxlx.toLower name).drop 8 else Rbxlx.toLower name) with
  | none => rw [hg] at h; cases h
  | some t =>
    rw [hg] at h
    exact aux _ (Map.mem_of_get? hg) h

/-- Every XML document that is accepted is decoded to trees that consist of all instances created. -/
theorem xml_trees {F : FloatText} {discard : Bool} {s : Bytes} {h : Heap Nat} {root : Root Nat}
    (hd : Rbxlx.decode F discard s = .ok (h, root)) : Trees h root.instances h ∧ root.metadata.Ok ∧
    ∀ p inst, h.get? p = some inst → ∀ n t v, inst.properties.get? n = some (.optional t (some v)) → v.type = t := by
  unfold Rbxlx.decode at hd
  rcases hr : Rbxlx.readFrom s with ⟨_ | doc, rest⟩ | e | _ <;> simp only [hr] at hd
  · simp only [Rbxlx.codecDecode, Res.ok.injEq, Prod.mk.injEq] at hd
    obtain ⟨rfl, rfl⟩ := hd
    exact ⟨⟨.nil, Map.ok_nil⟩, Map.ok_nil, by intro p i hp; cases hp⟩
  · obtain ⟨l, h1, h2, h3, h4⟩ := Rbxlx.codecDecode_spec hd
    have hf := Rbxlx.builds_forest h1
    have hl : l = h := map_ext_keys (h2.trans h3.symm) (h3 ▸ List.nodup_range) (forest_get hf)
    subst hl
    refine ⟨⟨hf, by unfold Map.Ok; rw [h2]; exact List.nodup_range⟩, h4 ▸ ok_foldl_set _ _ Map.ok_nil, ?_⟩
    have key : ∀ ts ps (m : Map Nat (Inst Nat)), Builds l (fun _ => PropsOf F discard doc.tags l) ts ps m →
        ∀ p inst, (p, inst) ∈ m → ∃ t, PropsOf F discard doc.tags l t inst := by
      intro ts ps m b
      induction b with
      | nil => intro p i hp; cases hp
      | skip _ _ ih => exact ih
      | item _ _ _ _ _ h6 _ _ ih1 ih2 =>
        intro p i hp
        rcases List.mem_cons.1 hp with e | hp
        · cases e; exact ⟨_, h6⟩
        · rcases List.mem_append.1 hp with hp | hp
          · exact ih1 p i hp
          · exact ih2 p i hp
    intro p inst hp n t v hv
    obtain ⟨tag, rs, r1, r2⟩ := key _ _ _ h1 p inst (Map.mem_of_get? hp)
    rw [r2] at hv
    have hlast : lastValue rs n = some (.optional t (some v)) := by
      unfold propertyOf at hv
      split at hv
      · cases hv
      · split at hv
        · cases hv
        · exact hv
    have hm := List.mem_of_getLast? hlast
    obtain ⟨r, hrm, hre⟩ := List.mem_filterMap.1 hm
    have htag : ∀ tg, Rbxlx.getProperty F discard tg = .ok r → v.type = t := by
      intro tg e
      have hr' : ∃ m, r = .value m (.optional t (some v)) := by
        split at hre
        · split at hre
          · cases hre; exact ⟨_, rfl⟩
          · cases hre
        · cases hre
      obtain ⟨m, rfl⟩ := hr'
      have hc := (C46_decoded_type F discard tg m _ e).1
      unfold Rbxlx.getProperty at e
      split at e
      · cases e
      · rename_i nm hnm
        rcases hcan : Rbxlx.getCanonType tg.head.startName with ⟨ty, o⟩
        rw [hcan] at hc
        simp only [hcan] at e
        cases o
        · exact absurd (show Ty.optional = ty from hc).symm (by simpa [hcan] using canonType_not_optional tg.head.startName)
        · simp only [if_true] at e
          split at e
          · cases e
          · simp at e
          · unfold Rbxlx.propValue at e
            split at e
            · cases e
            · cases e
            · cases e
            · split at e
              · split at e
                · simp at e
                  obtain ⟨-, rfl, rfl⟩ := e
                  rfl
                · cases e
              · cases e
              · simp at e
                obtain ⟨-, rfl, rfl⟩ := e
                rfl
    have hall : ∀ (ts : List Rbxlx.Tag) (rs : List (Rbxlx.PropRes Nat)),
        List.Forall₂ (fun t r => Rbxlx.getProperty F discard t = .ok r) ts rs → r ∈ rs →
        ∃ tg, Rbxlx.getProperty F discard tg = .ok r := by
      intro ts rs f
      induction f with
      | nil => intro h; cases h
      | cons h1 _ ih =>
        intro hm
        rcases List.mem_cons.1 hm with rfl | hm
        · exact ⟨_, h1⟩
        · exact ih hm
    obtain ⟨tg, htg⟩ := hall _ _ r1 hrm
    exact htag tg htg
  · cases hd
  · cases hd

theorem xml_no_service {F : FloatText} {discard : Bool} {s : Bytes} {h : Heap Nat} {root : Root Nat}
    (hd : Rbxlx.decode F discard s = .ok (h, root)) : ∀ p inst, h.get? p = some inst → inst.isService = false := by
  unfold Rbxlx.decode at hd
  rcases hr : Rbxlx.readFrom s with ⟨_ | doc, rest⟩ | e | _ <;> simp only [hr] at hd
  · simp only [Rbxlx.codecDecode, Res.ok.injEq, Prod.mk.injEq] at hd
    obtain ⟨rfl, rfl⟩ := hd
    intro p i hp; cases hp
  · obtain ⟨l, h1, h2, h3, h4⟩ := Rbxlx.codecDecode_spec hd
    have key : ∀ ts ps (m : Map Nat (Inst Nat)), Builds h (fun _ => PropsOf F discard doc.tags l) ts ps m →
        ∀ p inst, (p, inst) ∈ m → inst.isService = false := by
      intro ts ps m b
      induction b with
      | nil => intro p i hp; cases hp
      | skip _ _ ih => exact ih
      | item _ _ _ h4 _ _ _ _ ih1 ih2 =>
        intro p i hp
        rcases List.mem_cons.1 hp with e | hp
        · cases e; exact h4
        · rcases List.mem_append.1 hp with hp | hp
          · exact ih1 p i hp
          · exact ih2 p i hp
    intro p inst hp
    have hl : l = h := map_ext_keys (h2.trans h3.symm) (h3 ▸ List.nodup_range) (forest_get (Rbxlx.builds_forest h1))
    exact key _ _ _ h1 p inst (hl ▸ Map.mem_of_get? hp)
  · cases hd
  · cases hd

/-- The only Optional values are of the element type CFrame, the one the XML format has a tag for. -/
def OnlyCFrames (h : Heap Nat) : Prop :=
  ∀ p inst, h.get? p = some inst → ∀ n t o, inst.properties.get? n = some (.optional t o) → t = .cframe

section
variable (F : FloatText) (discard : Bool) (s : Bytes) (h : Heap Nat) (root : Root Nat)
  (hd : Rbxlx.decode F discard s = .ok (h, root)) (ho : OnlyCFrames h)
include hd ho

theorem OnlyCFrames.optionals (cls n : Bytes) : OptionalsOk (valuesOf (classmates h cls) n) := by
  obtain ⟨ht, -, hty⟩ := xml_trees hd
  have key : ∀ t o, .optional t o ∈ valuesOf (classmates h cls) n → t = .cframe ∧ ∀ v, o = some v → v.type = t := by
    intro t o hm
    obtain ⟨inst, hi, hv⟩ := List.mem_filterMap.1 hm
    obtain ⟨⟨p, i⟩, hp, rfl⟩ := List.mem_map.1 (List.mem_filter.1 hi).1
    have hg := Map.get?_of_mem ht.2 hp
    refine ⟨ho p i hg n t o hv, ?_⟩
    rintro v rfl
    exact hty p i hg n t v hv
  intro t o hm
  obtain ⟨rfl, h2⟩ := key t o hm
  refine ⟨nofun, nofun, ?_, ?_⟩
  · intro v hv; rw [h2 v hv]
  · intro t' o' hm'
    rw [(key t' o' hm').1]

/-- Without compression, the tree decoded from an XML document can always be encoded (`2 ^ 31` is the number of instance
ids); with compression, encoding does not panic. Missing: documents with other Optional tags, see
`C71_converts_fails`. -/
theorem C71_converts_partial (hn : h.length < 2 ^ 31) (lz : LZ4) (hlz : lz.Lossless) (it : Iter) (srt : Sorter)
    (hash : Bytes → Bytes) (place : Bool) :
    (∃ b, encodeRoot lz true it srt hash place h root = .ok b) ∧
    ∀ u, encodeRoot lz u it srt hash place h root ≠ .panic := by
  obtain ⟨ht, -, -⟩ := xml_trees hd
  exact ⟨C19_uncompressed_succeeds_partial lz it srt hash place h root h ht hn (OnlyCFrames.optionals F discard s h root hd ho),
    fun u => C19_no_panic_partial lz hlz u it srt hash place h root h ht hn (OnlyCFrames.optionals F discard s h root hd ho)⟩

/-- Decoding the binary file gives the tree of the XML document: instances correspond one to one, with the same roots,
children, classes and metadata, and the same properties up to `Kept`; none is a service. A property is lost only if the
instances of a class disagree about its type, or if it is a unique id and a model is written (`Written`). Instances
without a property that another instance of the class has receive a default (C15). -/
theorem C71_same_tree_partial (lz : LZ4) (hlz : lz.Lossless) (slack : Bytes → Nat) (quat : Quat) (noXML u : Bool) (it : Iter)
    (srt : Sorter) (hash : Bytes → Bytes) (place : Bool)
    (hc : ∀ s s', UsedShared h s → UsedShared h s' → hash s = hash s' → s = s')
    (hsm : SmallChunks it srt hash place h root) (b : Bytes) (hb : encodeRoot lz u it srt hash place h root = .ok b) :
    ∃ stats h' root' φ, decodeRoot lz slack quat noXML b = ⟨[], [], stats, .ok (.tree h' root')⟩ ∧
      Corresp h φ h' ∧ root'.instances.map some = root.instances.map φ ∧
      (∀ k, root'.metadata.get? k = root.metadata.get? k) ∧
      ∀ p inst, h.get? p = some inst → ∃ q inst', φ p = some q ∧ h'.get? q = some inst' ∧
        inst'.className = inst.className ∧ inst'.isService = false ∧ inst'.children.map some = inst.children.map φ ∧
        ∀ n, (∀ v, inst.properties.get? n = some v → Written place (valuesOf (classmates h inst.className) n) →
            ∃ w, inst'.properties.get? n = some w ∧ Kept φ v w) ∧
          (¬ Written place (valuesOf (classmates h inst.className) n) → inst'.properties.get? n = none) := by
  obtain ⟨ht, hm, hty⟩ := xml_trees hd
  have hs : ∀ x ∈ h, ∀ n v, x.2.properties.get? n = some v → Supported v := by
    rintro ⟨p, inst⟩ hx n v hv
    have hg := Map.get?_of_mem ht.2 hx
    unfold Supported
    split
    · rename_i t o
      have := ho p inst hg n t o hv
      subst this
      refine ⟨rfl, ?_⟩
      rintro w rfl
      exact hty p inst hg n _ w hv
    · trivial
  obtain ⟨stats, h', root', d, h1, h2, _, h3, h4, h5⟩ := roundtrip lz hlz slack quat noXML u it srt hash
    place h root h ht hm hs hc hsm b hb
  have hserv : ∀ p inst, h.get? p = some inst → inst.isService = false := by
    intro p inst hg
    exact xml_no_service hd p inst hg
  refine ⟨stats, h', root', decodedId h, h1, h2, h3, h4, ?_⟩
  intro p inst hg
  obtain ⟨q, inst', g1, g2, g3, _, g5, g6, g7⟩ := h5 p inst (Map.mem_of_get? hg)
  refine ⟨q, inst', g1, g2, g3, ?_, g6, fun n => ⟨?_, (g7 n).2⟩⟩
  · rw [g5, hserv p inst hg, Bool.and_false]
  · intro v hv hw
    obtain ⟨w, w1, w2⟩ := (g7 n).1 hw
    exact ⟨w, w1, w2.1 v hv⟩

end

/-- C71, exactly: the tree decoded from an XML document can be encoded without compression unless the values of some property of
some class are `BadOptionals`. -/
theorem C71_converts_iff (F : FloatText) (discard : Bool) (s : Bytes) (h : Heap Nat) (root : Root Nat)
    (hd : Rbxlx.decode F discard s = .ok (h, root)) (hn : h.length < 2 ^ 31) (lz : LZ4) (it : Iter) (srt : Sorter)
    (hash : Bytes → Bytes) (place : Bool) :
    (∃ b, encodeRoot lz true it srt hash place h root = .ok b) ↔
      ¬ ∃ cls n, BadOptionals (valuesOf (classmates h cls) n) := by
  obtain ⟨ht, -, hty⟩ := xml_trees hd
  exact C19_uncompressed_iff lz it srt hash place h root h ht hn fun x hx n t v hv =>
    hty x.1 x.2 (Map.get?_of_mem ht.2 hx) n t v hv

/-- C71, exactly, with or without compression: when encoding the tree panics. -/
theorem C71_panics_iff (F : FloatText) (discard : Bool) (s : Bytes) (h : Heap Nat) (root : Root Nat)
    (hd : Rbxlx.decode F discard s = .ok (h, root)) (hn : h.length < 2 ^ 31) (lz : LZ4) (hlz : lz.Lossless) (u : Bool)
    (it : Iter) (srt : Sorter) (hash : Bytes → Bytes) (place : Bool) :
    encodeRoot lz u it srt hash place h root = .panic ↔ ∃ cls n, BadOptionals (valuesOf (classmates h cls) n) := by
  obtain ⟨ht, -, hty⟩ := xml_trees hd
  exact C19_panics_iff lz hlz u it srt hash place h root h ht hn fun x hx n t v hv =>
    hty x.1 x.2 (Map.get?_of_mem ht.2 hx) n t v hv

/-- A document with an Optional tag of no known type. -/
def optionalDoc : Bytes := str (
  "<roblox version=\"4\"><Item class=\"A\"><Properties><OptionalThing name=\"P\"/></Properties></Item></roblox>")

/-- The tree of every XML document that is accepted can be encoded without compression. False of the code: an empty
tag "OptionalThing" is decoded to an Optional value without a type, and the binary encoder panics. -/
theorem C71_converts_fails : ¬ ∀ (discard : Bool) (s : Bytes) (h : Heap Nat) (root : Root Nat),
    Rbxlx.decode goFloat discard s = .ok (h, root) → h.length < 2 ^ 31 →
    ∃ b, encodeRoot LZ4.stored true Iter.id Sorter.insertion exHash true h root = .ok b := by
  intro hall
  obtain ⟨b, hb⟩ := hall false optionalDoc [(0, ⟨str "A", [], false, [(str "P", .optional .invalid none)], []⟩)]
    ⟨[0], []⟩ (by decide +kernel) (by decide)
  have : encodeRoot LZ4.stored true Iter.id Sorter.insertion exHash true
    ([(0, ⟨str "A", [], false, [(str "P", .optional .invalid none)], []⟩)] : Heap Nat) ⟨[0], []⟩ = .panic := by decide +kernel
  rw [this] at hb
  cases hb

example : encodeRoot LZ4.stored false Iter.id Sorter.insertion exHash false
    ([(0, ⟨str "A", [], false, [(str "P", .optional .invalid none)], []⟩)] : Heap Nat) ⟨[0], []⟩ = .panic :=
  (C71_panics_iff goFloat false optionalDoc _ _ (by decide +kernel) (by decide) LZ4.stored LZ4.stored_lossless false Iter.id
    Sorter.insertion exHash false).2 ⟨str "A", str "P", .invalid, none, [], by decide +kernel, .inl rfl⟩

/-! ### An example: the document of C70 -/

theorem mixedDoc_cframes : OnlyCFrames
    [(0, ⟨str "A", str "R", false, [(str "Q", .int 2), (str "S", .sharedString (str "b")), (str "P", .reference (some 1))], [1]⟩),
     (1, ⟨str "B", str "R", false, [], []⟩)] := by
  intro p inst hp n t o hv
  have := Map.mem_of_get? hp
  simp only [List.mem_cons, List.not_mem_nil, or_false, Prod.mk.injEq] at this
  rcases this with ⟨-, rfl⟩ | ⟨-, rfl⟩
  · have := Map.mem_of_get? hv
    simp at this
  · simp [Map.get?] at hv

example : ∃ b, encodeRoot LZ4.stored true Iter.id Sorter.insertion exHash true
    [(0, ⟨str "A", str "R", false, [(str "Q", .int 2), (str "S", .sharedString (str "b")), (str "P", .reference (some 1))], [1]⟩),
     (1, ⟨str "B", str "R", false, [], []⟩)] ⟨[0], [(str "M", str "2")]⟩ = .ok b :=
  (C71_converts_partial goFloat false mixedDoc _ _ (by decide +kernel) mixedDoc_cframes (by decide) LZ4.stored
    LZ4.stored_lossless Iter.id Sorter.insertion exHash true).1

end Props

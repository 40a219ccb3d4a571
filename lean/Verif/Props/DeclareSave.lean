import Verif.Declare.Save
import Verif.Spec.DeclareSave
import Verif.Props.Declare
import Verif.Props.ConvertXml
import Verif.Props.ConvertBinary
import Verif.Props.EncodeNoPanic
import Verif.Props.FreshExamples
import Mathlib.Data.List.Forall2
/-!
# C95: a declared tree can be saved

`declareRoot C it base ds` is `Root.Declare`, see `Verif.Props.Declare`; `encodeRoot` and `decodeRoot` write and read
binary files, `Rbxlx.encode` and `Rbxlx.decode` XML files.
-/
namespace Props
open Go Rbxfile Rbxl Spec Declare

section
variable {C : Conv} {it : Iter} {base : Nat} {ds : List Primary} {h : Heap Nat} {root : Root Nat}

theorem declared_tree (hd : declareRoot C it base ds = .ok (h, root)) : ∃ l m refs,
    Evaluated C refs h base (instancesOf ds) root.instances l ∧ Trees h root.instances m ∧
      m.map Prod.fst = l.map Prod.fst ∧ root.metadata.Ok ∧ (∀ k, root.metadata.get? k = lastMeta ds k) ∧ PropsOk h := by
  obtain ⟨l, ps, hb, hi, hm⟩ := buildRoot_built ds {} { next := base }
  unfold declareRoot at hd
  obtain ⟨h', he, hd⟩ := Res.bind_eq_ok.1 hd
  cases hd
  rcases evaluated C it hb with ⟨h1, e, ev⟩ | ⟨e, -⟩
  · rw [he] at e
    cases e
    have hi' : (buildRoot ds {} { next := base }).1.instances = ps := by rw [hi]; rfl
    obtain ⟨m, hf, hk⟩ := ev.decl.forest
    refine ⟨l, m, _, by rw [hi']; exact ev, ⟨by rw [hi']; exact hf, ?_⟩, hk,
      buildRoot_metadata ds _ _ Map.ok_nil, fun k => by rw [hm]; exact Option.or_none,
      assignAll_ok C _ _ _ _ he fun p i hp => ?_⟩
    · unfold Map.Ok
      rw [hk]; exact ev.nodup
    · have hmem : p ∈ l.map Prod.fst := by
        have := (hb.keys p).1 (by rw [hp]; rfl)
        simpa using this
      rw [hb.fresh p hmem i hp]
      exact Map.ok_nil
  · rw [he] at e
    cases e

/-- C95: evaluating a declaration gives a tree: no instance is in two places or below itself; the listing has the
declared instances in the order of declaration, and no others exist. -/
theorem C95_trees (hd : declareRoot C it base ds = .ok (h, root)) : ∃ l m,
    Declared h (instancesOf ds) root.instances l ∧ Trees h root.instances m ∧ m.map Prod.fst = l.map Prod.fst ∧
    ∀ p inst, h.get? p = some inst ↔ (p, inst) ∈ m := by
  obtain ⟨l, m, refs, ev, ht, hk, -⟩ := declared_tree hd
  refine ⟨l, m, ev.decl, ht, hk, fun p inst => ⟨fun hp => ?_, forest_mem ht.1 p inst⟩⟩
  have : p ∈ m.map Prod.fst := by rw [hk]; exact (ev.keys p).1 (by rw [hp]; rfl)
  obtain ⟨⟨q, i⟩, hq, rfl⟩ := List.mem_map.1 this
  have := forest_mem ht.1 q i hq
  rw [this] at hp
  cases hp
  exact hq

theorem declared_pairs {refs : References Nat} {l : List (Nat × Instance)} {m : Map Nat (Inst Nat)}
    (ev : Evaluated C refs h base (instancesOf ds) root.instances l) (ht : Trees h root.instances m)
    (hk : m.map Prod.fst = l.map Prod.fst) :
    List.Forall₂ (fun x y => x.1 = y.1 ∧ h.get? x.1 = some x.2 ∧ y ∈ l) m l := by
  have key : ∀ (m : Map Nat (Inst Nat)) (l' : List (Nat × Instance)), m.map Prod.fst = l'.map Prod.fst →
      (∀ x ∈ m, h.get? x.1 = some x.2) → (∀ y ∈ l', y ∈ l) →
      List.Forall₂ (fun x y => x.1 = y.1 ∧ h.get? x.1 = some x.2 ∧ y ∈ l) m l' := by
    intro m
    induction m with
    | nil => intro l' h1 _ _; cases l' with | nil => exact .nil | cons => cases h1
    | cons x m ih =>
      intro l' h1 h2 h3
      cases l' with
      | nil => cases h1
      | cons y l' =>
        simp only [List.map_cons, List.cons.injEq] at h1
        exact .cons ⟨h1.1, h2 x (by simp), h3 y (by simp)⟩ (ih l' h1.2 (fun z hz => h2 z (by simp [hz]))
          fun z hz => h3 z (by simp [hz]))
  exact key m l hk (fun x hx => forest_mem ht.1 x.1 x.2 hx) fun _ h => h

theorem first_pairs {α β γ δ : Type} {R : α → β → Prop} {S : γ → δ → Prop} {c : α → Bool} {c' : β → Bool}
    {f : α → Option γ} {f' : β → Option δ} (hc : ∀ a b, R a b → c a = c' b)
    (hf : ∀ a b, R a b → Option.Rel S (f a) (f' b)) : ∀ {as : List α} {bs : List β}, List.Forall₂ R as bs →
    Option.Rel S ((as.filter c).filterMap f).head? ((bs.filter c').filterMap f').head? := by
  intro as bs h
  induction h with
  | nil => exact .none
  | @cons a b as bs hr _ ih =>
    simp only [List.filter_cons, hc a b hr]
    split
    · have := hf a b hr
      revert this
      generalize ha : f a = u
      generalize hb : f' b = w
      intro this
      cases this with
      | none => simpa only [List.filterMap_cons, ha, hb] using ih
      | some hs => simpa only [List.filterMap_cons, ha, hb, List.head?_cons] using Option.Rel.some hs
    · exact ih

theorem declared_values {refs : References Nat} {l : List (Nat × Instance)} {m : Map Nat (Inst Nat)}
    (ev : Evaluated C refs h base (instancesOf ds) root.instances l) (ht : Trees h root.instances m)
    (hk : m.map Prod.fst = l.map Prod.fst) (hw : WellTyped ds) (cls n : Bytes) :
    Option.Rel (fun v q => value C q.typ refs q.value = .ok (some v)) (valuesOf (classmates m cls) n).head?
      (firstDeclared l cls n) := by
  have e : valuesOf (classmates m cls) n =
      (m.filter fun x => decide (x.2.className = cls)).filterMap fun x => x.2.properties.get? n := by
    unfold valuesOf classmates
    rw [List.filter_map, List.filterMap_map]
    rfl
  rw [e]
  refine first_pairs ?_ ?_ (declared_pairs ev ht hk)
  · rintro ⟨p, i⟩ ⟨p', d⟩ ⟨rfl, hi, hy⟩
    obtain ⟨i', hi', hc, -⟩ := ev.decl.mem p d hy
    cases hi.symm.trans hi'
    have hc : i.className = d.className := hc
    simp only [hc]
  · rintro ⟨p, i⟩ ⟨p', d⟩ ⟨rfl, hi, hy⟩
    simp only
    cases hp : lastProp d.properties n with
    | none => rw [ev.absent _ hy i hi n hp]; exact .none
    | some q =>
      have h1 := ev.present _ hy i hi n q hp
      have hq : q ∈ d.properties := (List.mem_filter.1 (List.mem_of_getLast? hp)).1
      obtain ⟨t, ht0, ht⟩ := hw q ((ev.decl.occurs q).2 ⟨_, hy, hq⟩)
      have h2 := h1
      rw [ht] at h2
      obtain ⟨v, hv⟩ := Option.isSome_iff_exists.1 (value_some ht0 h2)
      rw [hv] at h1 ⊢
      exact .some h1

theorem declared_optional {refs : References Nat} {l : List (Nat × Instance)} {m : Map Nat (Inst Nat)}
    (ev : Evaluated C refs h base (instancesOf ds) root.instances l) (ht : Trees h root.instances m)
    (hk : m.map Prod.fst = l.map Prod.fst) : ∀ x ∈ m, ∀ n t o, x.2.properties.get? n = some (.optional t o) →
      t = .invalid ∧ o = none := by
  rintro ⟨p, i⟩ hx n t o hv
  have hi := forest_mem ht.1 p i hx
  have : p ∈ l.map Prod.fst := by rw [← hk]; exact List.mem_map_of_mem hx
  obtain ⟨⟨p', d⟩, hy, rfl⟩ := List.mem_map.1 this
  cases hp : lastProp d.properties n with
  | none => rw [ev.absent _ hy i hi n hp] at hv; cases hv
  | some q =>
    have h1 := ev.present _ hy i hi n q hp
    rw [hv] at h1
    obtain ⟨a, b⟩ := value_optional h1
    have := a (b t o rfl)
    cases this
    exact ⟨rfl, rfl⟩

/-- C95, exactly when a declared tree can be saved as a binary file without compression: there must be no class such
that the first of its instances that declares some property declares it as an Optional. -/
theorem C95_binary_iff (hd : declareRoot C it base ds = .ok (h, root)) (hw : WellTyped ds) (hn : h.length < 2 ^ 31) :
    ∃ l, Declared h (instancesOf ds) root.instances l ∧
    ∀ (lz : LZ4) (it' : Iter) (srt : Sorter) (hash : Bytes → Bytes) (place : Bool),
      (∃ b, encodeRoot lz true it' srt hash place h root = .ok b) ↔
        ¬ ∃ cls n q, firstDeclared l cls n = some q ∧ q.typ = Ty.optional.code := by
  obtain ⟨l, m, refs, ev, ht, hk, -⟩ := declared_tree hd
  refine ⟨l, ev.decl, fun lz it' srt hash place => ?_⟩
  have hopt := declared_optional ev ht hk
  have hlen : m.length ≤ h.length := by
    have hsub : m.map Prod.fst ⊆ h.map Prod.fst := by
      intro p hp
      obtain ⟨x, hx, rfl⟩ := List.mem_map.1 hp
      exact List.mem_map.2 ⟨_, Map.mem_of_get? (forest_mem ht.1 x.1 x.2 hx), rfl⟩
    have := (List.subperm_of_subset ht.2 hsub).length_le
    simpa using this
  rw [C19_uncompressed_iff lz it' srt hash place h root m ht (by omega) fun x hx n t v hv => by
    have := (hopt x hx n t _ hv).2
    cases this]
  refine not_congr ⟨?_, ?_⟩
  · rintro ⟨cls, n, t, o, rest, e, -⟩
    have hr := declared_values ev ht hk hw cls n
    rw [e] at hr
    revert hr
    generalize hq : firstDeclared l cls n = fd
    rintro ⟨hv⟩
    exact ⟨cls, n, _, hq, (value_optional hv).2 _ _ rfl⟩
  · rintro ⟨cls, n, q, hq, hqt⟩
    have hr := declared_values ev ht hk hw cls n
    rw [hq] at hr
    cases hv : valuesOf (classmates m cls) n with
    | nil => rw [hv] at hr; cases hr
    | cons v rest =>
      rw [hv] at hr
      cases hr with
      | some hr =>
        have := (value_optional hr).1 hqt
        cases this
        exact ⟨cls, n, _, _, rest, hv, .inl rfl⟩

/-- C95: saving a declared tree as a binary file and reading that gives the declared tree: the same roots, class names
and children, in the declared order, the declared metadata; a property that is declared with documented values
(`Documented`) that the code implements (not `Refused`, see C54) has the value that the documentation says, up to the
normalisations of the binary format (`Kept`), if it is written at all: the instances of the class must declare it with one type,
and a UniqueId is written to places only (`Written`). -/
theorem C95_binary_saved (hd : declareRoot C it base ds = .ok (h, root)) (lz : LZ4) (hlz : lz.Lossless)
    (slack : Bytes → Nat) (quat : Quat) (noXML u : Bool) (it' : Iter) (srt : Sorter) (hash : Bytes → Bytes) (place : Bool)
    (hc : ∀ s s', UsedShared h s → UsedShared h s' → hash s = hash s' → s = s')
    (hsm : SmallChunks it' srt hash place h root) (b : Bytes) (hb : encodeRoot lz u it' srt hash place h root = .ok b) :
    ∃ l m stats h' root' φ, Declared h (instancesOf ds) root.instances l ∧ Trees h root.instances m ∧
      decodeRoot lz slack quat noXML b = ⟨[], [], stats, .ok (.tree h' root')⟩ ∧ Corresp m φ h' ∧
      root'.instances.map some = root.instances.map φ ∧ (∀ k, root'.metadata.get? k = lastMeta ds k) ∧
      ∀ p d, (p, d) ∈ l → ∃ q inst inst', h.get? p = some inst ∧ φ p = some q ∧ h'.get? q = some inst' ∧
        inst'.className = d.className ∧ inst'.isService = false ∧ inst'.children.map some = inst.children.map φ ∧
        ∀ n pr t w, lastProp d.properties n = some pr → pr.typ = Ty.code t → Documented (lastRef l) t pr.value w →
          ¬ Refused t pr.value → Written place (valuesOf (classmates m d.className) n) →
          ∃ w', inst'.properties.get? n = some w' ∧ Kept φ w w' := by
  obtain ⟨l, m, refs, ev, ht, hk, hmok, hmeta, -⟩ := declared_tree hd
  have hopt := declared_optional ev ht hk
  have hs : ∀ x ∈ m, ∀ n v, x.2.properties.get? n = some v → Supported v := by
    intro x hx n v hv
    unfold Supported
    split
    · obtain ⟨rfl, rfl⟩ := hopt x hx n _ _ hv
      exact ⟨rfl, nofun⟩
    · trivial
  have sub : ∀ s, UsedShared m s → UsedShared h s := by
    rintro s ⟨⟨p, i⟩, hx, n, hv⟩
    exact ⟨(p, i), Map.mem_of_get? (forest_mem ht.1 p i hx), n, hv⟩
  obtain ⟨stats, h', root', dd, h1, h2, _, h3, h4, h5⟩ := roundtrip lz hlz slack quat noXML u it' srt hash
    place h root m ht hmok hs (fun s s' a a' => hc s s' (sub s a) (sub s' a')) hsm b hb
  refine ⟨l, m, stats, h', root', decodedId m, ev.decl, ht, h1, h2, h3, fun k => by rw [h4, hmeta], ?_⟩
  intro p d hp
  obtain ⟨inst, hi, c1, -, c3⟩ := ev.decl.mem p d hp
  have hm : (p, inst) ∈ m := by
    have : p ∈ m.map Prod.fst := by rw [hk]; exact List.mem_map_of_mem hp
    obtain ⟨⟨p', i'⟩, hx, rfl⟩ := List.mem_map.1 this
    have := forest_mem ht.1 _ _ hx
    cases this.symm.trans hi
    exact hx
  obtain ⟨q, inst', g1, g2, g3, _, g5, g6, g7⟩ := h5 p inst hm
  refine ⟨q, inst, inst', hi, g1, g2, by rw [g3, c1], by rw [g5, c3, Bool.and_false], g6, ?_⟩
  intro n pr t w hpr hpt hdoc href hwr
  rw [← c1] at hwr
  obtain ⟨w', w1, w2⟩ := (g7 n).1 hwr
  refine ⟨w', w1, w2.1 w ?_⟩
  have k1 := ev.present _ hp inst hi n pr hpr
  rw [hpt] at k1
  have k2 := value_documented C (refs := refs) (by
    have : References.at refs = lastRef l := funext ev.resolves
    rw [this]; exact hdoc) href
  rw [k2] at k1
  exact (Res.ok.inj k1).symm

/-- C95: a declared tree can be saved as an XML file, and reading that gives the declared tree, if the random source
yields new references and the texts are such that XML can have them. A property that is declared with documented values
that the code implements has the value that the documentation says, up to the normalisations of the XML format
(`XmlKept`), if XML keeps such values at all (`XmlSupported`). -/
theorem C95_xml_saved_partial (hd : declareRoot C it base ds = .ok (h, root)) (hnp : NoPointers ds) (P : Rbxlx.Params)
    (L : Rbxlx.Layout) (discard : Bool) (hg : GoParams P) (hpre : ∀ x ∈ L.pre, XmlSpace x)
    (hind : ∀ x ∈ L.indent, XmlSpace x) (hroot : L.excludeRoot = false) (href : P.excludeReferent = false)
    (hrefs : ∀ p a, h.get? p = some a → 13#8 ∉ a.reference)
    (hnames : ∀ p inst, h.get? p = some inst → ∀ n v, inst.properties.get? n = some v → 13#8 ∉ n)
    (hcd : ∀ p inst, h.get? p = some inst → ∀ n s, inst.properties.get? n = some (.protectedString s) →
      ¬ str "]]>" <:+: s)
    (hc : ∀ s s', UsedShared h s → UsedShared h s' → P.hash s = P.hash s' → s = s') :
    ∃ l m, Declared h (instancesOf ds) root.instances l ∧ Trees h root.instances m ∧
      (Fresh P.gen (Rbxlx.demand m) P.attempts → ∃ x h1 h' root' φ, Rbxlx.encode P L h root = .ok (x, h1) ∧
        Rbxlx.decode P.F discard x = .ok (h', root') ∧ Corresp m φ h' ∧ root'.instances.map some = root.instances.map φ ∧
        ((∀ k v, root.metadata.get? k = some v → 13#8 ∉ k) → ∀ k, root'.metadata.get? k =
          if P.excludeMetadata then none else (lastMeta ds k).map normText) ∧
        ∀ p d, (p, d) ∈ l → ∃ q inst inst', h.get? p = some inst ∧ φ p = some q ∧ h'.get? q = some inst' ∧
          inst'.className = normNewlines d.className ∧ inst'.children.map some = inst.children.map φ ∧
          ∀ n, (lastProp d.properties n = none → inst'.properties.get? n = none) ∧
            ∀ pr t w, lastProp d.properties n = some pr → pr.typ = Ty.code t → Documented (lastRef l) t pr.value w →
              ¬ Refused t pr.value → XmlSupported w → ∃ w', inst'.properties.get? n = some w' ∧ XmlKept φ w w') := by
  obtain ⟨l, m, refs, ev, ht, hk, hmok, hmeta, hpo⟩ := declared_tree hd
  have hget := forest_mem ht.1
  refine ⟨l, m, ev.decl, ht, fun hf => ?_⟩
  obtain ⟨x, h1, he⟩ := C65_returns P L h root m hg hf ht (by
    rintro ⟨p, i⟩ hx n t hv
    have hi := hget p i hx
    have : p ∈ l.map Prod.fst := by rw [← hk]; exact List.mem_map_of_mem hx
    obtain ⟨⟨p', d⟩, hy, rfl⟩ := List.mem_map.1 this
    cases hp : lastProp d.properties n with
    | none => rw [ev.absent _ hy i hi n hp] at hv; cases hv
    | some q =>
      have k1 := ev.present _ hy i hi n q hp
      rw [hv] at k1
      have ho : Occurs q (instancesOf ds) :=
        (ev.decl.occurs q).2 ⟨_, hy, (List.mem_filter.1 (List.mem_of_getLast? hp)).1⟩
      rcases value_reference k1 with ⟨s, hs⟩ | hm | hm
      · rw [ev.resolves] at hs
        refine (ev.keys t).2 ?_
        unfold lastRef at hs
        split at hs
        · cases hs
        · obtain ⟨y, hy, rfl⟩ := Option.map_eq_some_iff.1 hs
          exact List.mem_map_of_mem (List.mem_filter.1 (List.mem_of_getLast? hy)).1
      · exact absurd rfl (hnp q ho _ hm t).1
      · exact absurd rfl (hnp q ho _ hm t).2)
  have hw : XmlEncodable P L h root m := by
    refine ⟨⟨hg, ht, ?_, ?_, hpre, hind, hroot⟩, hmok, hrefs, ?_, ?_⟩
    · rintro ⟨p, i⟩ hx; exact hpo p i (hget p i hx)
    · rintro ⟨p, i⟩ hx n s hs; exact hcd p i (hget p i hx) n s hs
    · rintro ⟨p, i⟩ hx n v hv; exact hnames p i (hget p i hx) n v hv
    · intro s s' hs hs'
      have sub : ∀ s, UsedShared m s → UsedShared h s := by
        rintro s ⟨⟨p, i⟩, hy, n, hv⟩
        exact ⟨(p, i), Map.mem_of_get? (hget p i hy), n, hv⟩
      exact hc s s' (sub s hs) (sub s' hs')
  obtain ⟨h2, root2, hdec, D⟩ := Rbxlx.xml_roundtrip hw.to discard he
  refine ⟨x, h1, h2, root2, _, he, hdec, D.corresp, D.roots,
    fun hcr k => by rw [D.metadata hcr, hmeta], ?_⟩
  intro p d hp
  obtain ⟨inst, hi, c1, -, -⟩ := ev.decl.mem p d hp
  have hm : (p, inst) ∈ m := by
    have : p ∈ m.map Prod.fst := by rw [hk]; exact List.mem_map_of_mem hp
    obtain ⟨⟨p', i'⟩, hx, rfl⟩ := List.mem_map.1 this
    have := hget _ _ hx
    cases this.symm.trans hi
    exact hx
  obtain ⟨q, inst', r, a1, a2, a3, a4, a5, a6, a7, a8, a9⟩ := D.insts p inst hm
  refine ⟨q, inst, inst', hi, a1, a2, by rw [a5, c1], a8, fun n => ⟨fun hn => ?_, ?_⟩⟩
  · rw [a9, ev.absent _ hp inst hi n hn]; rfl
  · intro pr t w hpr hpt hdoc hrf hs
    have k1 := ev.present _ hp inst hi n pr hpr
    rw [hpt] at k1
    have k2 := value_documented C (refs := refs) (by
      have : References.at refs = lastRef l := funext ev.resolves
      rw [this]; exact hdoc) hrf
    rw [k2] at k1
    obtain ⟨w', w1, w2⟩ := Rbxlx.kept_final discard (Rbxlx.decodedAs m) w hs
    refine ⟨w', ?_, w2⟩
    rw [a9, ← Res.ok.inj k1, href, hg.floats]
    exact w1

end

/-! ### Examples -/

theorem exDecl_occurs (q : Property) (h : Occurs q (instancesOf exDecl)) : q ∈ ([
    ⟨str "PrimaryPart", Ty.reference.code, [.string (str "b")]⟩,
    ⟨str "Size", Ty.vector3.code, [.int .int 1, .int .int 2, .f64 0]⟩,
    ⟨str "Other", Ty.reference.code, [.bytes (str "b")]⟩,
    ⟨str "Size", Ty.vector3.code, [.int .int 4, .int .uint8 2, .f32 0]⟩,
    ⟨str "Up", Ty.reference.code, [.string (str "m")]⟩,
    ⟨str "None", Ty.reference.code, [.string (str "zzz")]⟩] : List Property) := by
  have leaf : ∀ {d : Instance}, d.children = [] → ¬ Occurs q d.children := by
    intro d hd ho
    rw [hd] at ho
    cases ho with
    | here h => cases h
    | deeper h => cases h
  cases h with
  | here hm hq =>
    cases hm with
    | head => simp only [instanceOf, List.foldl, addElement, Instance.properties, List.nil_append] at hq; simp_all
    | tail _ h => cases h
  | deeper hm ho =>
    cases hm with
    | tail _ h => cases h
    | head =>
      cases ho with
      | here hm hq =>
        cases hm with
        | head => simp only [instanceOf, List.foldl, addElement, Instance.properties, List.nil_append] at hq; simp_all; grind
        | tail _ hm =>
          cases hm with
          | head => simp only [instanceOf, List.foldl, addElement, Instance.properties, List.nil_append] at hq; simp_all
          | tail _ h => cases h
      | deeper hm ho =>
        cases hm with
        | head => exact absurd ho (leaf rfl)
        | tail _ hm =>
          cases hm with
          | head => exact absurd ho (leaf rfl)
          | tail _ h => cases h

/-- The declaration of the examples of C53 meets the hypotheses. -/
theorem exDecl_typed : WellTyped exDecl := by
  intro q h
  have := exDecl_occurs q h
  simp only [List.mem_cons, List.not_mem_nil, or_false] at this
  rcases this with rfl | rfl | rfl | rfl | rfl | rfl
  all_goals first | exact ⟨.reference, nofun, rfl⟩ | exact ⟨.vector3, nofun, rfl⟩

theorem exDecl_noPointers : NoPointers exDecl := by
  intro q h a ha p
  have := exDecl_occurs q h
  simp only [List.mem_cons, List.not_mem_nil, or_false] at this
  rcases this with rfl | rfl | rfl | rfl | rfl | rfl
  all_goals
    simp only [List.mem_cons, List.not_mem_nil, or_false] at ha
    rcases ha with rfl | rfl | rfl <;> exact ⟨nofun, nofun⟩

/-- The tree of the examples. -/
def declHeap : Heap Nat := [
  (7, { className := str "Model", reference := str "m", properties := [(str "PrimaryPart", .reference (some 9))], children := [8, 9] }),
  (8, { className := str "Part", reference := str "a",
        properties := [(str "Size", .vector3 ⟨0x40800000, 0x40000000, 0⟩), (str "Other", .reference (some 9))] }),
  (9, { className := str "Part", reference := str "b",
        properties := [(str "Up", .reference (some 7)), (str "None", .reference none)] })]

/-- Its root. -/
def declRoot : Root Nat := { instances := [7], metadata := [(str "k", str "v")] }

theorem exDecl_ok : declareRoot exConv Iter.rev 7 exDecl = .ok (declHeap, declRoot) := by decide +kernel

theorem declHeap_shared (s : Bytes) : ¬ UsedShared declHeap s := by
  rintro ⟨x, hx, n, hv⟩
  have hv := Map.mem_of_get? hv
  simp only [declHeap, List.mem_cons, List.not_mem_nil, or_false] at hx
  rcases hx with rfl | rfl | rfl <;>
    simp only [List.mem_cons, List.not_mem_nil, or_false, Prod.mk.injEq, reduceCtorEq, and_false] at hv

/-- C95: the example is saved as a binary file that can be read. -/
example : ∃ b, encodeRoot LZ4.stored true Iter.rev Sorter.insertion exHash true declHeap declRoot = .ok b ∧
    ∃ stats h' root', decodeRoot LZ4.stored (fun _ => 0) (fun _ _ _ _ => default) true b =
      ⟨[], [], stats, .ok (.tree h' root')⟩ ∧ ∀ k, root'.metadata.get? k = lastMeta exDecl k := by
  have hb : ∃ b, encodeRoot LZ4.stored true Iter.rev Sorter.insertion exHash true declHeap declRoot = .ok b :=
    ⟨_, ok_bytesOf (by decide +kernel)⟩
  obtain ⟨b, hb⟩ := hb
  obtain ⟨l, m, stats, h', root', φ, -, -, h1, -, -, h2, -⟩ := C95_binary_saved exDecl_ok LZ4.stored
    LZ4.stored_lossless (fun _ => 0) (fun _ _ _ _ => default) true true Iter.rev Sorter.insertion exHash true
    (fun s _ hs => absurd hs (declHeap_shared s)) (small_of_smallB (by decide +kernel)) b hb
  exact ⟨b, hb, stats, h', root', h1, h2⟩

/-- C95: the example can be saved without compression, as no Optional is declared. -/
example : ∃ l, Declared declHeap (instancesOf exDecl) declRoot.instances l ∧
    ¬ ∃ cls n q, firstDeclared l cls n = some q ∧ q.typ = Ty.optional.code := by
  obtain ⟨l, h1, h2⟩ := C95_binary_iff exDecl_ok exDecl_typed (by decide)
  exact ⟨l, h1, (h2 LZ4.stored Iter.rev Sorter.insertion exHash true).1 ⟨_, ok_bytesOf (by decide +kernel)⟩⟩

theorem decl_demand {m : Map Nat (Inst Nat)} (hm : Trees declHeap [7] m) : Rbxlx.demand m ≤ 19 := by
  obtain ⟨hf, -⟩ := hm
  cases hf with
  | cons h1 h2 h3 =>
    cases h1
    cases h3
    cases h2 with
    | cons h1 h2 h3 =>
      cases h1
      cases h2
      cases h3 with
      | cons h1 h2 h3 => cases h1; cases h2; cases h3; decide

/-- C95: the example is saved as an XML file that can be read. -/
example : ∃ x h1 h' root', Rbxlx.encode { exP with attempts := 20 } {} declHeap declRoot = .ok (x, h1) ∧
    Rbxlx.decode goFloat false x = .ok (h', root') := by
  have hmem : ∀ {p : Nat} {i : Inst Nat}, declHeap.get? p = some i → (p, i) ∈ declHeap := Map.mem_of_get?
  have hall : ∀ x ∈ declHeap, 13#8 ∉ x.2.reference ∧ ∀ y ∈ x.2.properties, 13#8 ∉ y.1 ∧ y.2.type ≠ .protectedString := by
    decide +kernel
  obtain ⟨l, m, -, h1, h2⟩ := C95_xml_saved_partial exDecl_ok exDecl_noPointers { exP with attempts := 20 } {} false
    ⟨rfl, counter, counter_length, rfl⟩ nofun nofun rfl rfl (fun p a ha => (hall _ (hmem ha)).1)
    (fun p i hi n v hv => ((hall _ (hmem hi)).2 _ (Map.mem_of_get? hv)).1)
    (fun p i hi n s hv => absurd rfl ((hall _ (hmem hi)).2 _ (Map.mem_of_get? hv)).2)
    (fun s _ hs => absurd hs (declHeap_shared s))
  obtain ⟨x, h1, h', root', φ, e1, e2, -⟩ :=
    h2 (Fresh_mono (counter_fresh 19 (by omega)) (Nat.le_trans (decl_demand h1) (by omega)) (Nat.le_refl _))
  exact ⟨x, h1, h', root', e1, e2⟩

/-- A property that is declared as an Optional. -/
def optDecl : List Primary :=
  [.instance (instanceOf (str "A") [.property ⟨str "P", Ty.optional.code, [.value (.optional .int (some (.int 1)))]⟩])]

/-- C95: every declared tree can be saved as a binary file. False of the code: a declared Optional has no type, and the
encoder panics. -/
theorem C95_optional_fails : ∃ h root, declareRoot exConv Iter.id 0 optDecl = .ok (h, root) ∧ WellTyped optDecl ∧
    encodeRoot LZ4.stored true Iter.id Sorter.insertion exHash true h root = .panic := by
  refine ⟨[(0, { className := str "A", properties := [(str "P", .optional .invalid none)] })], { instances := [0] },
    by decide +kernel, ?_, by decide +kernel⟩
  intro q h
  refine ⟨.optional, nofun, ?_⟩
  cases h with
  | here hm hq =>
    cases hm with
    | tail _ h => cases h
    | head => cases hq with
      | head => rfl
      | tail _ h => cases h
  | deeper hm ho =>
    cases hm with
    | tail _ h => cases h
    | head => cases ho with
      | here h => cases h
      | deeper h => cases h

end Props

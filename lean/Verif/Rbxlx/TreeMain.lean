import Verif.Rbxlx.TreeBack
import Verif.Rbxl.EncTree
/-!
# A tree is encoded and decoded: the main theorem
-/
namespace Rbxlx
open Go Rbxfile Spec

variable {ρ : Type} [DecidableEq ρ]

/-! ## References -/

/-- The assignments of references. -/
def refOps (lookup : References Nat) (prs : List (PropRef Nat)) : Ops :=
  prs.filterMap fun pr => pr.inst.map fun p => (p, pr.property, .reference (lookup.at pr.reference))

theorem resolve_set (lookup : References Nat) (pr : PropRef Nat) (h : Heap Nat) :
    (lookup.resolve pr h).2 = setProperty h pr (.reference (lookup.at pr.reference)) := by
  unfold References.resolve setProperty
  cases pr.inst with
  | none => rfl
  | some p =>
    simp only
    cases h.get? p <;> rfl

theorem resolveFold (lookup : References Nat) : ∀ (prs : List (PropRef Nat)) (h : Heap Nat),
    prs.foldl (fun h pr => (lookup.resolve pr h).2) h = applyOps h (refOps lookup prs)
  | [], h => rfl
  | ⟨inst, prop, ref⟩ :: prs, h => by
    rw [List.foldl_cons, resolve_set, resolveFold lookup prs]
    unfold refOps
    rw [List.filterMap_cons]
    cases inst with
    | none => simp [setProperty]
    | some p => simp [applyOps, setProperty]

theorem lookupFold {R : ρ → Bytes} {pos : ρ → Nat} : ∀ (l : Map ρ (Inst ρ)) (m : References Nat),
    (∀ r, (∀ x ∈ l, R x.1 ≠ r) →
      References.at (l.foldl (fun m x => m.set (R x.1) (some (pos x.1))) m) r = m.at r) ∧
    (∀ x ∈ l, (∀ y ∈ l, R y.1 = R x.1 → y.1 = x.1) →
      References.at (l.foldl (fun m x => m.set (R x.1) (some (pos x.1))) m) (R x.1) = some (pos x.1))
  | [], m => ⟨fun _ _ => rfl, by simp⟩
  | z :: l, m => by
    obtain ⟨ih1, ih2⟩ := lookupFold (R := R) (pos := pos) l (m.set (R z.1) (some (pos z.1)))
    rw [List.foldl_cons]
    refine ⟨fun r hr => ?_, fun x hx hinj => ?_⟩
    · rw [ih1 r (fun x hx => hr x (by simp [hx])), References.at_set, if_neg]
      exact fun e => hr z (by simp) e.symm
    · by_cases hex : ∃ y ∈ l, y.1 = x.1
      · obtain ⟨y, hy, hyx⟩ := hex
        have := ih2 y hy (fun w hw hR => by
          rw [hyx]; exact hinj w (by simp [hw]) (by rw [← hyx]; exact hR))
        rw [hyx] at this
        exact this
      · have hxz : x = z := by
          rcases List.mem_cons.1 hx with h | h
          · exact h
          · exact absurd ⟨x, h, rfl⟩ hex
        subst hxz
        rw [ih1 _ (fun y hy e => hex ⟨y, hy, hinj y (by simp [hy]) e⟩), References.at_set, if_pos rfl]

/-! ## Properties -/

theorem get?_filterMap {ν : Type} (g : Bytes → Option ν) (m : Bytes) : ∀ (ns : List Bytes),
    Map.get? (ns.filterMap fun n => (g n).map fun w => (n, w)) m = if m ∈ ns then g m else none
  | [] => rfl
  | n :: ns => by
    rw [List.filterMap_cons]
    have ih := get?_filterMap g m ns
    cases hg : g n with
    | none =>
      simp only [Option.map_none]
      rw [ih]
      by_cases hm : m = n
      · subst hm; simp [hg]
      · simp [hm]
    | some w =>
      simp only [Option.map_some, Map.get?]
      rw [ih]
      by_cases hm : n = m
      · subst hm; simp [hg]
      · have hm' : ¬ m = n := fun e => hm e.symm
        simp [hm, hm']

theorem nowProps_get (F : FloatText) (d : Bool) (props : Map Bytes (Value ρ)) (n : Bytes) :
    (nowProps F d props (names props)).get? n = (props.get? n).bind (nowValue F d) := by
  have e : nowProps F d props (names props) =
      (names props).filterMap fun n => ((props.get? n).bind (nowValue F d)).map fun w => (n, w) := by
    unfold nowProps
    congr 1
    funext n
    cases props.get? n <;> rfl
  rw [e, get?_filterMap]
  split
  · rfl
  · rename_i h
    rw [mem_names] at h
    cases hp : props.get? n with
    | none => rfl
    | some v => rw [hp] at h; simp at h

theorem mem_laterRefs {R : ρ → Bytes} {p : Nat} {props : Map Bytes (Value ρ)} {r : PropRef Nat} :
    r ∈ laterRefs R p props (names props) ↔
      ∃ n q, props.get? n = some (.reference (some q)) ∧ r = ⟨some p, n, R q⟩ := by
  unfold laterRefs
  rw [List.mem_filterMap]
  constructor
  · rintro ⟨n, -, h⟩
    obtain ⟨v, hv, h⟩ := Option.bind_eq_some_iff.1 h
    split at h
    · cases h; exact ⟨n, _, hv, rfl⟩
    · cases h
  · rintro ⟨n, q, hq, rfl⟩
    exact ⟨n, (mem_names _ _).2 (by rw [hq]; rfl), by rw [hq]; rfl⟩

theorem mem_laterShared {hash : Bytes → Bytes} {p : Nat} {props : Map Bytes (Value ρ)} {r : PropRef Nat} :
    r ∈ laterShared hash p props (names props) ↔
      ∃ n s, props.get? n = some (.sharedString s) ∧ r = ⟨some p, n, hash s⟩ := by
  unfold laterShared
  rw [List.mem_filterMap]
  constructor
  · rintro ⟨n, -, h⟩
    obtain ⟨v, hv, h⟩ := Option.bind_eq_some_iff.1 h
    split at h
    · cases h; exact ⟨n, _, hv, rfl⟩
    · cases h
  · rintro ⟨n, s, hs, rfl⟩
    exact ⟨n, (mem_names _ _).2 (by rw [hs]; rfl), by rw [hs]; rfl⟩

/-! ## The document -/

theorem items_tidy {P : Params} (hF : ReadableText P.F) {R : ρ → Bytes} {h : Heap ρ} {ps : List ρ}
    {l : Map ρ (Inst ρ)} (f : Forest h ps l) : ∀ {items : List Tag}, Items P R h ps items →
    (∀ x ∈ l, ∀ n s, x.2.properties.get? n = some (.protectedString s) → ¬ [93#8, 93#8, 62#8] <:+: s) →
    Tidy items ∧ ∀ t ∈ items, t.head.startName = str "Item" := by
  induction f with
  | nil => intro items hI _; cases hI; exact ⟨trivial, by simp⟩
  | @cons p ps inst below more hp f1 f2 ih1 ih2 =>
    intro items hI hc
    cases hI with
    | @cons _ _ inst' kids items hp' hk hi =>
    rw [hp] at hp'; cases hp'
    obtain ⟨k1, -⟩ := ih1 hk fun x hx => hc x (by simp [hx])
    obtain ⟨r1, r2⟩ := ih2 hi fun x hx => hc x (by simp [hx])
    obtain ⟨-, -, hh⟩ := item_attr P inst.className (R p) (propTags P R inst.properties) kids
    refine ⟨⟨⟨hh, tidy_node (by decide) ?_, k1⟩, r1⟩, ?_⟩
    · rw [tidy_iff]
      intro t ht
      obtain ⟨n, -, ht⟩ := List.mem_filterMap.1 ht
      exact propTag_tidy hF (hc (p, inst) (by simp)) ht
    · intro t ht
      rcases List.mem_cons.1 ht with rfl | ht
      · rfl
      · exact r2 t ht

theorem mem_reread {ts : List Tag} {t : Tag} (h : t ∈ reread ts) : ∃ u ∈ ts, t = rereadOf u := by
  rw [reread_map] at h
  obtain ⟨u, hu, rfl⟩ := List.mem_map.1 h
  exact ⟨u, hu, rfl⟩

theorem rootHead_tidy : TidyHead rootHead := by
  have ho : okName (str "roblox") = true := by decide
  refine ⟨rfl, rfl, (okName_spec ho).1, (okName_spec ho).2, ?_, by simp [rootHead]⟩
  intro a ha
  have : ∀ n : Bytes, (checkName .attr n && match n with | [] => false | c :: _ => decide (c ≠ 47#8)) = true →
      checkName .attr n = true ∧ FirstNot [47#8] n := by
    intro n hn
    simp only [Bool.and_eq_true] at hn
    refine ⟨hn.1, ?_⟩
    rintro c t rfl
    simpa using hn.2
  simp only [rootHead, List.mem_cons, List.not_mem_nil, or_false] at ha
  rcases ha with rfl | rfl | rfl | rfl <;> exact this _ (by decide)

theorem rootHead_check : checkRoot { startName := rootHead.startName, attr := attrsBack rootHead.attr, empty := rootHead.empty } =
    .ok () := by
  decide +kernel

theorem read_written {L : Layout} (hpre : ∀ b ∈ L.pre, XmlSpace b) (hind : ∀ b ∈ L.indent, XmlSpace b)
    (hx : L.excludeRoot = false) {ts : List Tag} (ht : Tidy ts) :
    readFrom (writeTo ⟨L.pre, if L.indent = [] && !L.noDefaultIndent then str "\t" else L.indent, L.suffix, L.excludeRoot,
      some ⟨rootHead, ts⟩⟩) = .ok (some (rereadOf ⟨rootHead, ts⟩), L.suffix) := by
  have := readFrom_writeTo (d := ⟨L.pre, if L.indent = [] && !L.noDefaultIndent then str "\t" else L.indent, L.suffix,
    L.excludeRoot, some ⟨rootHead, ts⟩⟩) (fun b hb => (isSpace_iff b).2 (hpre b hb))
    (fun b hb => (isSpace_iff b).2 (by
      simp only at hb
      split at hb
      · rw [show str "\t" = [9#8] by decide] at hb
        simp only [List.mem_singleton] at hb
        subst hb; decide
      · exact hind b hb)) hx rfl rfl rootHead_tidy.name (tidyHead_wf rootHead_tidy) (tidy_back ht).2 rootHead_check
  rw [this, (tidy_back ht).1]
  have e : oneBack rootHead (reread ts) = [rereadOf ⟨rootHead, ts⟩] := by
    simp [oneBack, rootHead_tidy.name, rereadOf, rootHead_tidy.empty, rootHead_tidy.comment]
  rw [e]; rfl

/-! ## The main theorem -/

/-- The position of an instance in the list. -/
def posIn (l : Map ρ (Inst ρ)) (p : ρ) : Nat := (l.map Prod.fst).idxOf p

/-- The decoded instance. -/
def decodedAs (l : Map ρ (Inst ρ)) (p : ρ) : Option Nat := if p ∈ l.map Prod.fst then some (posIn l p) else none

/-- The decoded value. -/
def finalValue (F : FloatText) (d ex : Bool) (φ : ρ → Option Nat) : Value ρ → Option (Value Nat)
  | .reference (some q) => some (.reference (if ex then none else φ q))
  | .sharedString s => some (.sharedString s)
  | v => backValue F d v

theorem posIn_num {l : Map ρ (Inst ρ)} (hl : l.Ok) {k : Nat} {x : ρ × Inst ρ} (h : l[k]? = some x) :
    posIn l x.1 = k := by
  obtain ⟨hk, rfl⟩ := List.getElem?_eq_some_iff.1 h
  have hl' : (l.map Prod.fst).Nodup := hl
  have := hl'.idxOf_getElem k (by simpa using hk)
  simpa [posIn] using this

theorem posIn_inj {l : Map ρ (Inst ρ)} {x y : ρ} (hx : x ∈ l.map Prod.fst) (h : posIn l x = posIn l y) : x = y := by
  have hlt : posIn l x < (l.map Prod.fst).length := List.idxOf_lt_length_of_mem hx
  have e1 : (l.map Prod.fst)[posIn l x] = x := List.getElem_idxOf hlt
  have e2 : (l.map Prod.fst)[posIn l y]'(by rw [← h]; exact hlt) = y := List.getElem_idxOf (by
    show posIn l y < _
    rw [← h]; exact hlt)
  rw [← e1, ← e2]
  simp only [h]

theorem decHeap {l : Map ρ (Inst ρ)} (hl : l.Ok) (g : ρ × Inst ρ → Inst Nat) :
    Map.Ok (l.map fun x => (posIn l x.1, g x)) := by
  unfold Map.Ok
  rw [List.map_map]
  have hl' : (l.map Prod.fst).Nodup := hl
  have e : l.map (Prod.fst ∘ fun x => (posIn l x.1, g x)) = (l.map Prod.fst).map (posIn l) := by
    rw [List.map_map]; rfl
  rw [e]
  rw [List.nodup_iff_pairwise_ne, List.pairwise_map]
  refine List.Pairwise.imp_of_mem ?_ (List.nodup_iff_pairwise_ne.1 hl')
  intro a b ha hb hab e
  exact hab (posIn_inj ha e)

/-- What is required to read an encoded tree back. -/
structure Writable (P : Params) (L : Layout) (h : Heap ρ) (root : Root ρ) (l : Map ρ (Inst ρ)) : Prop where
  text : ReadableText P.F
  trees : Trees h root.instances l
  metadata : root.metadata.Ok
  properties : ∀ x ∈ l, x.2.properties.Ok
  generated : ∀ k, isEmptyReference (P.gen k) = false ∧ 13#8 ∉ P.gen k
  references : ∀ p a, h.get? p = some a → 13#8 ∉ a.reference
  names : ∀ x ∈ l, ∀ n v, x.2.properties.get? n = some v → 13#8 ∉ n
  cdata : ∀ x ∈ l, ∀ n s, x.2.properties.get? n = some (.protectedString s) → ¬ [93#8, 93#8, 62#8] <:+: s
  collisions : ∀ s s', UsedShared l s → UsedShared l s' → P.hash s = P.hash s' → s = s'
  pre : ∀ b ∈ L.pre, XmlSpace b
  indent : ∀ b ∈ L.indent, XmlSpace b
  root : L.excludeRoot = false

/-- What is decoded. -/
structure Decoded (P : Params) (d : Bool) (root : Root ρ) (l : Map ρ (Inst ρ)) (h1 : Heap ρ) (h2 : Heap Nat)
    (root2 : Root Nat) : Prop where
  corresp : Corresp l (decodedAs l) h2
  roots : root2.instances.map some = root.instances.map (decodedAs l)
  metadata : (∀ k v, root.metadata.get? k = some v → 13#8 ∉ k) → ∀ k, root2.metadata.get? k =
    if P.excludeMetadata then none else (root.metadata.get? k).map normText
  insts : ∀ p inst, (p, inst) ∈ l → ∃ q inst' r, decodedAs l p = some q ∧ h2.get? q = some inst' ∧
    h1.get? p = some { inst with reference := r } ∧ isEmptyReference r = false ∧
    inst'.className = normNewlines inst.className ∧
    inst'.reference = (if P.excludeReferent then [] else r) ∧ inst'.isService = false ∧
    inst'.children.map some = inst.children.map (decodedAs l) ∧
    ∀ n, inst'.properties.get? n =
      (inst.properties.get? n).bind (finalValue P.F d P.excludeReferent (decodedAs l))
  metas : ∀ k v, root2.metadata.get? k = some v → ∃ x : Bytes × Bytes, k = normNewlines x.1 ∧ v = normText x.2

theorem xml_roundtrip {P : Params} {L : Layout} {h : Heap ρ} {root : Root ρ} {l : Map ρ (Inst ρ)}
    (hw : Writable P L h root l) (d : Bool) {b : Bytes} {h1 : Heap ρ} (he : encode P L h root = .ok (b, h1)) :
    ∃ h2 root2, decode P.F d b = .ok (h2, root2) ∧ Decoded P d root l h1 h2 root2 := by
  obtain ⟨hforest, hl⟩ := hw.trees
  unfold encode codecEncode at he
  cases hea : encodeAll (encodeInstance P (h.length + 1)) [] 0 root.instances ⟨⟨h, [], 0⟩, []⟩ with
  | panic => simp only [hea] at he; cases he
  | err e => simp only [hea] at he; cases he
  | ok res =>
    obtain ⟨items, st⟩ := res
    simp only [hea, Res.ok.injEq, Prod.mk.injEq] at he
    obtain ⟨rfl, rfl⟩ := he
    have E := encodeAll_step (fun k => (hw.generated k).1) hforest hw.properties _ _ _ _ _ _ (SameBut.refl h) hea
    -- the references
    let R : ρ → Bytes := fun p => ((st.refs.heap.get? p).map Inst.reference).getD []
    have hR : Agrees R st := by
      rintro p r ⟨-, -, a, ha, rfl⟩
      show ((st.refs.heap.get? p).map Inst.reference).getD [] = _
      rw [ha]; rfl
    have hcr : ∀ p a, st.refs.heap.get? p = some a → 13#8 ∉ a.reference :=
      E.step.refs (fun r => 13#8 ∉ r) (fun k => (hw.generated k).2) hw.references
    have hmark : ∀ x ∈ l, Marked st.refs x.1 (R x.1) := by
      intro x hx
      obtain ⟨r, hr⟩ := E.marked x hx
      rw [hR _ _ hr]; exact hr
    have htarget : ∀ x ∈ l, ∀ n q, x.2.properties.get? n = some (.reference (some q)) → Marked st.refs q (R q) := by
      intro x hx n q hq
      obtain ⟨r, hr⟩ := E.targets x hx n q hq
      rw [hR _ _ hr]; exact hr
    have hRcr : ∀ q, Marked st.refs q (R q) → 13#8 ∉ R q := by
      rintro q ⟨-, -, a, ha, e⟩
      rw [← e]; exact hcr q a ha
    have hI := E.items R hR
    have hok : InstsOk R l := ⟨fun x hx => ⟨hw.properties x hx, hw.names x hx, hw.cdata x hx,
      fun n q hq => ⟨(htarget x hx n q hq).1, hRcr q (htarget x hx n q hq)⟩⟩,
      fun x hx => ⟨(hmark x hx).1, hRcr _ (hmark x hx)⟩⟩
    obtain ⟨hIt, hIn⟩ := items_tidy hw.text hforest hI hw.cdata
    -- the other tags
    let xs : List (Bytes × Bytes) := P.srt.run (fun a b => bytesLt a.1 b.1) (P.it.run [0] root.metadata)
    have hxs : xs.Perm root.metadata := (P.srt.perm _ _).trans (P.it.perm _ _)
    let A : List Tag := if P.excludeMetadata then [] else xs.map metaTagOf
    let B : List Tag := if P.excludeExternal then [] else externalTags
    let S : List Tag := sharedTags P st.shared
    have hA : Tidy A := by
      show Tidy (if P.excludeMetadata then [] else xs.map metaTagOf)
      split
      · trivial
      · rw [tidy_iff]
        intro t ht
        obtain ⟨x, -, rfl⟩ := List.mem_map.1 ht
        exact (metaTag_back x).1
    have hAn : ∀ t ∈ reread A, t.head.startName = str "Meta" := by
      intro t ht
      obtain ⟨u, hu, rfl⟩ := mem_reread ht
      rw [start_reread]
      simp only [A] at hu
      split at hu
      · cases hu
      · obtain ⟨x, -, rfl⟩ := List.mem_map.1 hu
        rfl
    have hB : Tidy B := by
      show Tidy (if P.excludeExternal then [] else externalTags)
      split
      · trivial
      · exact ⟨tidy_plain (by decide) trivial, tidy_plain (by decide) trivial, trivial⟩
    have hBn : ∀ t ∈ reread B, t.head.startName = str "External" := by
      intro t ht
      obtain ⟨u, hu, rfl⟩ := mem_reread ht
      rw [start_reread]
      simp only [B] at hu
      split at hu
      · cases hu
      · simp only [externalTags, List.mem_cons, List.not_mem_nil, or_false] at hu
        rcases hu with rfl | rfl <;> rfl
    have hS : Tidy S ∧ (∀ t ∈ reread S, t.head.startName = str "SharedStrings") := by
      show Tidy (sharedTags P st.shared) ∧ (∀ t ∈ reread (sharedTags P st.shared), t.head.startName = str "SharedStrings")
      rw [sharedTags_eq]
      split
      · exact ⟨trivial, by simp [reread]⟩
      · refine ⟨⟨tidy_node (by decide) ?_, trivial⟩, ?_⟩
        · rw [tidy_iff]
          intro t ht
          obtain ⟨x, -, rfl⟩ := List.mem_map.1 ht
          exact (sharedTag_back [] x []).1
        · intro t ht
          obtain ⟨u, hu, rfl⟩ := mem_reread ht
          rw [start_reread]
          simp only [List.mem_singleton] at hu
          subst hu; rfl
    have hmt : metaTags P root.metadata = xs.map metaTagOf := rfl
    have hAll : Tidy (A ++ B ++ items ++ S) := by
      rw [tidy_append, tidy_append, tidy_append]
      exact ⟨⟨⟨hA, hB⟩, hIt⟩, hS.1⟩
    -- reading the document
    have hread := read_written hw.pre hw.indent hw.root hAll
    unfold decode
    have hdoc : ((if P.excludeMetadata = true then [] else metaTags P root.metadata) ++
      (if P.excludeExternal = true then [] else externalTags) ++ items ++ sharedTags P st.shared) = A ++ B ++ items ++ S := rfl
    rw [hdoc, hread]
    simp only [codecDecode]
    have htags : (rereadOf ⟨rootHead, A ++ B ++ items ++ S⟩).tags = reread A ++ (reread B ++ (reread items ++ reread S)) := by
      rw [tags_reread]
      simp [reread_append]
    rw [htags]
    -- the instances
    let pos := posIn l
    have hitems := getItems_items hw.text d (pos := pos) hforest hI hok {} rfl
      (fun k x hx => by simpa using posIn_num hl hx) (reread S) none false [] [] [] (decState P d R pos l {}) (by
        have := getItems_skip P.F d none false [] (decState P d R pos l {}) (reread S) [] (fun t ht => by
          rw [hS.2 t ht]; decide)
        rw [List.append_nil] at this
        rw [this, getItems])
    rw [getItems_skip _ _ _ _ _ _ _ _ (fun t ht => by rw [hAn t ht]; decide),
      getItems_skip _ _ _ _ _ _ _ _ (fun t ht => by rw [hBn t ht]; decide), hitems]
    simp only [List.append_nil]
    -- the root
    have hroot : rootTags (decState P d R pos l {}).stringRefs (reread A ++ (reread B ++ (reread items ++ reread S))) []
        (decState P d R pos l {}).heap =
        ((if P.excludeMetadata then [] else xs.foldl (fun m x => Map.set m (normNewlines x.1) (normText x.2)) []),
          applyOps (decState P d R pos l {}).heap
            ((sharedList P st.shared).flatMap (sharedOps (decState P d R pos l {}).stringRefs))) := by
      have e1 : ∀ hh, rootTags (decState P d R pos l {}).stringRefs (reread A) [] hh =
          ((if P.excludeMetadata then [] else xs.foldl (fun m x => Map.set m (normNewlines x.1) (normText x.2)) []), hh) := by
        intro hh
        simp only [A]
        split
        · rfl
        · exact rootTags_meta _ xs [] hh
      have e2 : ∀ m hh, rootTags (decState P d R pos l {}).stringRefs (reread S) m hh = (m, applyOps hh
          ((sharedList P st.shared).flatMap (sharedOps (decState P d R pos l {}).stringRefs))) := by
        intro m hh
        show rootTags (decState P d R pos l {}).stringRefs (reread (sharedTags P st.shared)) m hh = _
        rw [sharedTags_eq]
        split
        · rename_i hn
          have : sharedList P st.shared = [] := by
            apply List.eq_nil_iff_forall_not_mem.2
            intro x hx
            rw [mem_sharedList, hn] at hx
            cases hx
          rw [this]; rfl
        · simp only [reread, rootTags]
          rw [if_neg (by rw [start_reread]; exact (by decide : ¬ str "SharedStrings" = str "Meta")), if_pos (by rw [start_reread]; rfl), tags_reread]
          show (m, ((reread ((sharedList P st.shared).map sharedTagOf)).foldl (sharedTag _) hh)) = _
          rw [sharedFold]
      rw [rootTags_append, e1]
      simp only
      rw [rootTags_append, rootTags_skip _ (reread B) _ _ (fun t ht => by rw [hBn t ht]; decide)]
      simp only
      rw [rootTags_append, rootTags_skip _ (reread items) _ _ (fun t ht => by
        obtain ⟨u, hu, rfl⟩ := mem_reread ht
        rw [start_reread, hIn u hu]; decide)]
      simp only
      rw [e2]
    rw [hroot, resolveFold, ← applyOps_append]
    simp only
    refine ⟨_, _, rfl, ?_⟩
    -- the decoded tree
    have hheap : (decState P d R pos l {}).heap = l.map fun x => (pos x.1, decInst P.F d P.excludeReferent R pos x) := by
      simp [decState]
    have hget : ∀ x ∈ l, (decState P d R pos l {}).heap.get? (pos x.1) =
        some (decInst P.F d P.excludeReferent R pos x) := by
      intro x hx
      rw [hheap]
      exact Map.get?_of_mem (decHeap hl _) (List.mem_map.2 ⟨x, hx, rfl⟩)
    have hmemkey : ∀ x ∈ l, x.1 ∈ l.map Prod.fst := fun x hx => List.mem_map.2 ⟨x, hx, rfl⟩
    have hdec : ∀ p, p ∈ l.map Prod.fst → decodedAs l p = some (pos p) := fun p hp => by
      unfold decodedAs; rw [if_pos hp]
    refine ⟨⟨?_, ?_, ?_⟩, ?_, ?_, ?_, ?_⟩
    · intro p
      unfold decodedAs
      split <;> simp_all
    · intro p p' q h1 h2
      unfold decodedAs at h1 h2
      split at h1
      · rename_i hp
        split at h2
        · cases h1
          exact posIn_inj hp (Option.some.inj h2).symm
        · cases h2
      · cases h1
    · intro q
      rw [applyOps_keys, hheap, Map.get?_isSome, List.map_map]
      constructor
      · intro hq
        obtain ⟨x, hx, rfl⟩ := List.mem_map.1 hq
        exact ⟨x.1, hdec _ (hmemkey x hx)⟩
      · rintro ⟨p, hp⟩
        unfold decodedAs at hp
        split at hp
        · rename_i hpm
          obtain ⟨x, hx, rfl⟩ := List.mem_map.1 hpm
          cases hp
          exact List.mem_map.2 ⟨x, hx, rfl⟩
        · cases hp
    · rw [List.map_map]
      apply List.map_congr_left
      intro p hp
      exact (hdec p (Rbxl.Forest.roots_mem hforest p hp)).symm
    · intro hkeys k
      simp only
      split
      · rfl
      · have hnd : (xs.map Prod.fst).Nodup := (hxs.map Prod.fst).nodup_iff.2 hw.metadata
        rw [metaFold_get xs (fun x hx => hkeys x.1 x.2 (Map.get?_of_mem hw.metadata (hxs.mem_iff.1 hx))) [] hnd (by simp)]
        simp only [Map.get?_nil, Option.or_none]
        rw [Map.get?_perm hw.metadata hxs.symm k]
    · intro p inst hp
      have hpk := hmemkey (p, inst) hp
      obtain ⟨j, g1, g2, g3⟩ := applyOps_get ((sharedList P st.shared).flatMap (sharedOps (decState P d R pos l {}).stringRefs) ++
        refOps (decState P d R pos l {}).lookup (decState P d R pos l {}).propRefs) _ (pos p) (hget (p, inst) hp)
      have hpm := hmark (p, inst) hp
      obtain ⟨hm1, hm2, a, ha, hm3⟩ := hpm
      obtain ⟨r, hr⟩ := E.step.heap p inst (Rbxl.Forest.get? hforest (p, inst) hp)
      simp only at hr ha hm3
      rw [hr] at ha; cases ha
      simp only at hm3
      refine ⟨pos p, j, r, hdec p hpk, g1, hr, by rw [hm3]; exact hm1, g2.cls, ?_, g2.svc, ?_, ?_⟩
      · rw [g2.ref, hm3]; rfl
      · rw [g2.kids]
        show (inst.children.map pos).map some = _
        rw [List.map_map]
        apply List.map_congr_left
        intro c hc
        exact (hdec c (Rbxl.Forest.children_mem hforest (p, inst) hp c hc)).symm
      · intro n
        have hprops : (decInst P.F d P.excludeReferent R pos (p, inst)).properties.get? n =
          (inst.properties.get? n).bind (nowValue P.F d) := nowProps_get P.F d inst.properties n
        -- the assignments to this property
        have hsame : ∀ x ∈ l, pos x.1 = pos p → x = (p, inst) := by
          intro x hx e
          have := posIn_inj (hmemkey x hx) e
          have h1 : Map.get? l x.1 = some x.2 := Map.get?_of_mem hl hx
          have h2 : Map.get? l p = some inst := Map.get?_of_mem hl hp
          rw [this, h2] at h1
          cases x; simp only at this h1; subst this; cases h1; rfl
        have hmem : ∀ v, (pos p, n, v) ∈ ((sharedList P st.shared).flatMap (sharedOps (decState P d R pos l {}).stringRefs) ++
            refOps (decState P d R pos l {}).lookup (decState P d R pos l {}).propRefs) ↔
            (∃ s, inst.properties.get? n = some (.sharedString s) ∧ v = .sharedString s) ∨
            (∃ q, inst.properties.get? n = some (.reference (some q)) ∧
              v = .reference (if P.excludeReferent then none else decodedAs l q)) := by
          intro v
          rw [List.mem_append]
          apply or_congr
          · rw [List.mem_flatMap]
            constructor
            · rintro ⟨⟨k, s'⟩, hx, hv⟩
              rw [mem_sharedList] at hx
              simp only at hx
              obtain ⟨r', hr', hv⟩ := List.mem_filterMap.1 hv
              split at hv
              · rename_i hk
                simp only [decState, List.nil_append, List.mem_flatMap] at hr'
                obtain ⟨x, hxl, hr'⟩ := hr'
                obtain ⟨m, s, hs, rfl⟩ := mem_laterShared.1 hr'
                simp only [Option.map_some, Option.some.injEq, Prod.mk.injEq] at hv hk
                obtain ⟨e1, rfl, rfl⟩ := hv
                have := hsame x hxl e1
                subst this
                rcases E.sharedOnly k s' hx with h0 | ⟨h0, hu⟩
                · cases h0
                · have : s = s' := hw.collisions s s' ⟨_, hxl, _, hs⟩ hu (by rw [hk, h0])
                  subst this
                  exact ⟨s, hs, rfl⟩
              · cases hv
            · rintro ⟨s, hs, rfl⟩
              obtain ⟨s', hs'⟩ := Option.isSome_iff_exists.1 (E.sharedAll s ⟨_, hp, _, hs⟩)
              have : s = s' := by
                rcases E.sharedOnly _ s' hs' with h0 | ⟨h0, hu⟩
                · cases h0
                · exact hw.collisions s s' ⟨_, hp, _, hs⟩ hu h0
              subst this
              refine ⟨(P.hash s, s), (mem_sharedList P _).2 hs', List.mem_filterMap.2 ⟨⟨some (pos p), n, P.hash s⟩, ?_, ?_⟩⟩
              · simp only [decState, List.nil_append, List.mem_flatMap]
                exact ⟨_, hp, mem_laterShared.2 ⟨n, s, hs, rfl⟩⟩
              · simp
          · have hlook : ∀ q, Marked st.refs q (R q) → (decState P d R pos l {}).lookup.at (R q) =
                if P.excludeReferent then none else decodedAs l q := by
              intro q hq
              simp only [decState, lookupOf]
              split
              · rfl
              · obtain ⟨k1, k2⟩ := lookupFold (R := R) (pos := pos) l []
                by_cases hql : q ∈ l.map Prod.fst
                · obtain ⟨x, hx, rfl⟩ := List.mem_map.1 hql
                  rw [hdec _ hql]
                  exact k2 x hx fun y hy e => (hmark y hy).inj (by rw [e]; exact hmark x hx)
                · unfold decodedAs
                  rw [if_neg hql]
                  refine k1 (R q) fun x hx e => hql ?_
                  have : x.1 = q := (hmark x hx).inj (by rw [e]; exact hq)
                  rw [← this]; exact hmemkey x hx
            unfold refOps
            rw [List.mem_filterMap]
            constructor
            · rintro ⟨pr, hpr, hv⟩
              simp only [decState, List.nil_append, List.mem_flatMap] at hpr
              obtain ⟨x, hxl, hpr⟩ := hpr
              obtain ⟨m, q, hq, rfl⟩ := mem_laterRefs.1 hpr
              simp only [Option.map_some, Option.some.injEq, Prod.mk.injEq] at hv
              obtain ⟨e1, rfl, rfl⟩ := hv
              have := hsame x hxl e1
              subst this
              refine ⟨q, hq, ?_⟩
              rw [hlook q (htarget _ hxl _ q hq)]
            · rintro ⟨q, hq, rfl⟩
              refine ⟨⟨some (pos p), n, R q⟩, ?_, ?_⟩
              · simp only [decState, List.nil_append, List.mem_flatMap]
                exact ⟨_, hp, mem_laterRefs.2 ⟨n, q, hq, rfl⟩⟩
              · simp only [Option.map_some]
                rw [hlook q (htarget _ hp _ q hq)]
        obtain ⟨g4, g5⟩ := g3 n
        cases hv : inst.properties.get? n with
        | none =>
          rw [g4 (fun v hm => by
            rcases (hmem v).1 hm with ⟨s, hs, -⟩ | ⟨q, hq, -⟩
            · rw [hv] at hs; cases hs
            · rw [hv] at hq; cases hq), hprops, hv]
          rfl
        | some v =>
          by_cases c1 : ∃ q, v = .reference (some q)
          · obtain ⟨q, rfl⟩ := c1
            rw [g5 _ ((hmem _).2 (.inr ⟨q, hv, rfl⟩)) ?_]
            · rfl
            · intro w hwm
              rcases (hmem w).1 hwm with ⟨s, hs, -⟩ | ⟨q', hq, rfl⟩
              · rw [hv] at hs; cases hs
              · rw [hv] at hq; cases hq; rfl
          · by_cases c2 : ∃ s, v = .sharedString s
            · obtain ⟨s, rfl⟩ := c2
              rw [g5 _ ((hmem _).2 (.inl ⟨s, hv, rfl⟩)) ?_]
              · rfl
              · intro w hwm
                rcases (hmem w).1 hwm with ⟨s', hs, rfl⟩ | ⟨q', hq, -⟩
                · rw [hv] at hs; cases hs; rfl
                · rw [hv] at hq; cases hq
            · rw [g4 (fun w hm => by
                rcases (hmem w).1 hm with ⟨s, hs, -⟩ | ⟨q, hq, -⟩
                · rw [hv] at hs; cases hs; exact c2 ⟨s, rfl⟩
                · rw [hv] at hq; cases hq; exact c1 ⟨q, rfl⟩), hprops, hv, Option.bind_some, Option.bind_some]
              have n1 : nowValue P.F d v = backValue P.F d v := by
                unfold nowValue
                split
                · exact absurd ⟨_, rfl⟩ c1
                · exact absurd ⟨_, rfl⟩ c2
                · rfl
              have n2 : finalValue P.F d P.excludeReferent (decodedAs l) v = backValue P.F d v := by
                unfold finalValue
                split
                · exact absurd ⟨_, rfl⟩ c1
                · exact absurd ⟨_, rfl⟩ c2
                · rfl
              rw [n1, n2]
    · intro k v hk
      simp only at hk
      split at hk
      · cases hk
      · exact metaFold_from xs [] (fun _ _ h => by cases h) hk

end Rbxlx

import Verif.Rbxlx.TreeDoc
import Verif.Spec.XmlFile
/-!
# The layout of the document of a tree
-/
namespace Rbxlx
open Go Rbxfile Spec

variable {ρ : Type} [DecidableEq ρ]

mutual
theorem skeleton_reread : ∀ (t : Tag), skeleton (rereadOf t) = skeleton t
  | ⟨h, ts⟩ => by rw [rereadOf, skeleton, skeleton, skeletons_reread ts]; rfl
theorem skeletons_reread : ∀ (ts : List Tag), skeletons (reread ts) = skeletons ts
  | [] => rfl
  | t :: ts => by rw [reread, skeletons, skeletons, skeleton_reread t, skeletons_reread ts]
end

theorem skeleton_named (n : Bytes) : ∀ (t : Tag), skeleton (named n t) = skeleton t
  | ⟨h, ts⟩ => by rw [named, skeleton, skeleton]

theorem optionalName_eq (t : Ty) : getCanonTag t true = optionalName t := by
  cases t <;> decide

theorem startName_content (h : Head) (s : Bytes) : (encodeContent h s).startName = h.startName := by
  unfold encodeContent
  split <;> rfl

theorem encodeValue_skeleton (F : FloatText) (hash : Bytes → Bytes) (ref : Bytes) (v : Value ρ) :
    ∃ t, encodeValue F hash ref v = some t ∧ skeleton t = valueSkeleton v := by
  cases v
  case optional ty o =>
    cases o with
    | none => exact ⟨_, rfl, by simp only [skeleton, skeletons, valueSkeleton, optionalName_eq]⟩
    | some v =>
      by_cases hv : v.type = .cframe
      · have e : ∃ p r, v = .cframe p r := by
          cases v
          case cframe p r => exact ⟨p, r, rfl⟩
          all_goals cases hv
        obtain ⟨p, r, rfl⟩ := e
        exact ⟨_, rfl, by simp only [node, skeleton, skeletons, valueSkeleton, optionalName_eq, hv, if_true]; rfl⟩
      · have e : encodeValue F hash ref (.optional ty (some v)) = some (node (getCanonTag ty true) []) := by
          cases v <;> first | rfl | exact absurd rfl hv
        exact ⟨_, e, by simp only [node, skeleton, skeletons, valueSkeleton, optionalName_eq, hv, if_false]⟩
  case physicalProperties c _ _ _ _ _ => cases c <;> exact ⟨_, rfl, rfl⟩
  case content s => 
    refine ⟨_, rfl, ?_⟩
    by_cases hs : s = [] <;> simp only [contentTag, hs, if_true, if_false, valueSkeleton, contentParts] <;> rfl
  case font fam w st c =>
    refine ⟨_, rfl, ?_⟩
    by_cases hs : fam = [] <;> by_cases hc : c = [] <;>
      simp only [contentTag, hs, hc, if_true, if_false, valueSkeleton, contentParts] <;> rfl
  all_goals first
    | exact ⟨_, rfl, rfl⟩
    | exact ⟨_, rfl, by simp only [skeleton, skeletons, valueSkeleton, startName_content]⟩

theorem attr_rereadNamed (n : Bytes) (t : Tag) : (rereadOf (named n t)).head.attr = [(str "name", normNewlines n)] := by
  obtain ⟨h, ts⟩ := t
  show attrsBack [(str "name", n)] = _
  rw [attrsBack_tidy fun a ha => (tidy_name n a ha).1]
  rfl

/-- Names are strictly increasing. -/
theorem strict_of_sorted {α : Type} (key : α → Bytes) (srt : Sorter) {l : List α} (hn : (l.map key).Nodup) :
    (srt.run (fun a b => bytesLt (key a) (key b)) l).Pairwise fun a b => bytesLt (key a) (key b) = true := by
  have h1 := srt.sorted (fun a b => bytesLt (key a) (key b)) l (strictWeak_bytes key)
  have h2 : ((srt.run (fun a b => bytesLt (key a) (key b)) l).map key).Nodup :=
    ((srt.perm (fun a b => bytesLt (key a) (key b)) l).map key).nodup_iff.2 hn
  rw [List.Nodup, List.pairwise_map] at h2
  refine (h1.and h2).imp ?_
  rintro a b ⟨e, ne⟩
  rcases bytesLt_total ne with h | h
  · exact h
  · rw [h] at e; cases e

theorem names_strict {ν : Type} {props : Map Bytes ν} (h : props.Ok) : (names props).Pairwise fun a b => bytesLt a b = true :=
  strict_of_sorted id Sorter.insertion (by rw [List.map_id]; exact h)

/-- The text of links. -/
theorem link_text {P : Params} {R : ρ → Bytes} {h1 : Heap ρ} {v : Value ρ} {t : Tag} {n : Bytes}
    (hR : ∀ q, v = .reference (some q) → ∃ a, h1.get? q = some a ∧ a.reference = R q)
    (he : encodeValue P.F P.hash (refText R v) v = some t) : LinkText P.hash h1 v (rereadOf (named n t)) := by
  cases v
  case reference o =>
    cases he
    cases o with
    | none => show getContent _ = _; rw [content_named, content_leaf]; rfl
    | some q =>
      obtain ⟨a, ha, hr⟩ := hR q rfl
      exact ⟨a, ha, by rw [content_named, content_leaf, hr]; rfl⟩
  case sharedString s =>
    show b64Decode (getContent _) = some (P.hash s)
    rw [content_named]
    cases he
    rw [encodeContent_split, content_text _ _ rfl, Props.normText_of_no_cr (split_no_cr _), b64Decode_split]
  all_goals trivial

/-- The elements for instances. -/
theorem items_layout {P : Params} {R : ρ → Bytes} {h h1 : Heap ρ} (hsame : SameBut h h1)
    (hR : ∀ p a, h1.get? p = some a → R p = a.reference) {ps : List ρ} {l : Map ρ (Inst ρ)} (f : Forest h ps l) :
    ∀ {items : List Tag}, Items P R h ps items → (∀ x ∈ l, x.2.properties.Ok) →
    (∀ x ∈ l, ∀ n q, x.2.properties.get? n = some (.reference (some q)) → ∃ a, h1.get? q = some a) →
    ItemElements P.hash P.excludeReferent h1 ps (reread items) := by
  induction f with
  | nil => intro items hI _ _; cases hI; exact .nil
  | @cons p ps inst below more hp f1 f2 ih1 ih2 =>
    intro items hI hok ht
    cases hI with
    | @cons _ _ inst' kids items hp' hk hi =>
    rw [hp] at hp'; cases hp'
    obtain ⟨r, hr⟩ := hsame p inst hp
    have hRp : R p = r := hR p _ hr
    have k1 := ih1 hk (fun x hx => hok x (by simp [hx])) fun x hx => ht x (by simp [hx])
    have k2 := ih2 hi (fun x hx => hok x (by simp [hx])) fun x hx => ht x (by simp [hx])
    have c1 : checkName .attr (str "class") = true := by decide
    have c2 : checkName .attr (str "referent") = true := by decide
    have ne : (str "class" = str "referent") = False := by decide
    have hset : setAttrValue [(str "class", inst.className), (str "referent", R p)] (str "referent") [] =
        [(str "class", inst.className)] := by
      simp [setAttrValue, List.findIdx?_cons, ne]
    rw [reread]
    refine .cons (inst := { inst with reference := r }) (props := rereadOf (node (str "Properties") (propTags P R inst.properties)))
      (kids := reread kids) hr rfl ?_ ?_ ⟨rfl, rfl, names inst.properties, ?_, mem_names _, ?_⟩ k1 k2
    · show attrsBack _ = _
      cases hx : P.excludeReferent with
      | true =>
        simp only [if_true, hset]
        rw [attrsBack_tidy (by simp [c1])]
        rfl
      | false =>
        simp only [Bool.false_eq_true, if_false]
        rw [attrsBack_tidy (by simp [c1, c2]), hRp]
        rfl
    · rfl
    · exact names_strict (hok (p, inst) (by simp))
    · show List.Forall₂ _ _ (reread (propTags P R inst.properties))
      rw [reread_map]
      unfold propTags
      have aux : ∀ ns : List Bytes, (∀ n ∈ ns, (inst.properties.get? n).isSome) →
          List.Forall₂ (fun n t => ∃ v, inst.properties.get? n = some v ∧ PropertyElement P.hash h1 n v t) ns
            ((ns.filterMap (propTag P R inst.properties)).map rereadOf) := by
        intro ns
        induction ns with
        | nil => intro _; exact .nil
        | cons n ns ih =>
          intro hm
          obtain ⟨v, hv⟩ := Option.isSome_iff_exists.1 (hm n (by simp))
          obtain ⟨t, he, hs⟩ := encodeValue_skeleton P.F P.hash (refText R v) v
          have hp : propTag P R inst.properties n = some (named n t) := by
            simp only [propTag, hv, Option.bind_some, he, Option.map_some]
          rw [List.filterMap_cons, hp]
          refine .cons ⟨v, hv, attr_rereadNamed n t, ?_, ?_⟩ (ih fun m hm' => hm m (by simp [hm']))
          · rw [skeleton_reread, skeleton_named, hs]
          · refine link_text (fun q hq => ?_) he
            obtain ⟨a, ha⟩ := ht (p, inst) (by simp) n q (by rw [← hq]; exact hv)
            exact ⟨a, ha, (hR q a ha).symm⟩
      exact aux _ fun n hn => (mem_names _ n).1 hn

theorem root_attr : attrsBack rootHead.attr = [(str "xmlns:xmime", str "http://www.w3.org/2005/05/xmlmime"),
    (str "xmlns:xsi", str "http://www.w3.org/2001/XMLSchema-instance"),
    (str "xsi:noNamespaceSchemaLocation", str "http://www.roblox.com/roblox.xsd"), (str "version", str "4")] := by
  decide +kernel

/-- The layout of the document of a tree. -/
theorem encode_layout {P : Params} {L : Layout} {h : Heap ρ} {root : Root ρ} {l : Map ρ (Inst ρ)}
    (hw : Legible P L h root l) (hmeta : root.metadata.Ok) {b : Bytes} {h1 : Heap ρ} (he : encode P L h root = .ok (b, h1)) :
    ∃ (doc : Tag) (metas externals items shared : List Tag), readFrom b = .ok (some doc, L.suffix) ∧
      XmlFile P.hash P.excludeReferent P.excludeExternal P.excludeMetadata root.metadata h1 root.instances l doc
        metas externals items shared := by
  have hforest := hw.forest
  unfold encode codecEncode at he
  cases hea : encodeAll (encodeInstance P (h.length + 1)) [] 0 root.instances ⟨⟨h, [], 0⟩, []⟩ with
  | panic => simp only [hea] at he; cases he
  | err e => simp only [hea] at he; cases he
  | ok res =>
    obtain ⟨items, st⟩ := res
    simp only [hea, Res.ok.injEq, Prod.mk.injEq] at he
    obtain ⟨rfl, rfl⟩ := he
    have E := encodeAll_step hw.generated hforest hw.properties _ _ _ _ _ _ (SameBut.refl h) hea
    let R : ρ → Bytes := fun p => ((st.refs.heap.get? p).map Inst.reference).getD []
    have hR : Agrees R st := by
      rintro p r ⟨-, -, a, ha, rfl⟩
      show ((st.refs.heap.get? p).map Inst.reference).getD [] = _
      rw [ha]; rfl
    have hR' : ∀ p a, st.refs.heap.get? p = some a → R p = a.reference := by
      intro p a ha
      show ((st.refs.heap.get? p).map Inst.reference).getD [] = _
      rw [ha]; rfl
    have hI := E.items R hR
    have hlay := items_layout E.step.heap hR' hforest hI hw.properties (by
      intro x hx n q hq
      obtain ⟨r, -, -, a, ha, -⟩ := E.targets x hx n q hq
      exact ⟨a, ha⟩)
    have hok : st.shared.Ok := E.step.ok (by unfold Map.Ok; simp)
    refine ⟨rereadOf ⟨rootHead, (if P.excludeMetadata then [] else metaTags P root.metadata) ++
      (if P.excludeExternal then [] else externalTags) ++ items ++ sharedTags P st.shared⟩,
      reread (if P.excludeMetadata then [] else metaTags P root.metadata),
      reread (if P.excludeExternal then [] else externalTags), reread items, reread (sharedTags P st.shared), ?_, ?_⟩
    · exact read_written hw.pre hw.indent hw.root ((tidy_append _ _).2 ⟨(tidy_append _ _).2 ⟨(tidy_append _ _).2
        ⟨(metas_tidy P root.metadata).1, (externals_tidy P).1⟩, (items_tidy hw.text hforest hI hw.cdata).1⟩, shareds_tidy P st.shared⟩)
    · refine ⟨rfl, ?_, ?_, ?_, ?_, hlay, ?_, ?_, ?_⟩
      · exact root_attr
      · show reread _ = _
        rw [reread_append, reread_append, reread_append]
      · cases P.excludeMetadata with
        | true => rfl
        | false =>
          simp only [Bool.false_eq_true, if_false]
          refine ⟨P.srt.run (fun a b => bytesLt a.1 b.1) (P.it.run [0] root.metadata), (P.srt.perm _ _).trans (P.it.perm _ _),
            strict_of_sorted Prod.fst P.srt (((P.it.perm [0] root.metadata).map Prod.fst).nodup_iff.2 hmeta), ?_⟩
          rw [metaTags, reread_map]
          generalize P.srt.run (fun a b => bytesLt a.1 b.1) (P.it.run [0] root.metadata) = es
          induction es with
          | nil => exact .nil
          | cons e es ih =>
            refine .cons ⟨rfl, ?_, ?_, rfl⟩ ih
            · show attrsBack [(str "name", e.1)] = _
              rw [attrsBack_tidy fun a ha => (tidy_name e.1 a ha).1]
              rfl
            · rw [content_text _ _ rfl]
      · cases P.excludeExternal with
        | true => rfl
        | false => exact .cons ⟨rfl, rfl, by decide, rfl⟩ (.cons ⟨rfl, rfl, by decide, rfl⟩ .nil)
      · intro hno
        have : st.shared = [] := by
          cases hs : st.shared with
          | nil => rfl
          | cons x xs =>
            obtain ⟨k, s⟩ := x
            rcases E.sharedOnly k s (by rw [hs]; simp [Map.get?]) with h | h
            · cases h
            · exact absurd h.2 (hno s)
        rw [this]; rfl
      · rintro ⟨s0, hs0⟩
        have hne : st.shared ≠ [] := by
          intro e
          have := E.sharedAll s0 hs0
          rw [e] at this; cases this
        have hget : ∀ k, k ∈ st.shared.keys ↔ ∃ s, UsedShared l s ∧ P.hash s = k := by
          intro k
          constructor
          · intro hk
            obtain ⟨s, hs⟩ := Option.isSome_iff_exists.1 (Map.get?_isSome.2 hk)
            rcases E.sharedOnly k s hs with h | ⟨h, hu⟩
            · cases h
            · exact ⟨s, hu, h.symm⟩
          · rintro ⟨s, hu, rfl⟩
            exact Map.get?_isSome.1 (E.sharedAll s hu)
        have hmem : ∀ k, k ∈ P.srt.run bytesLt (P.it.run [2] st.shared.keys) ↔ k ∈ st.shared.keys := fun k =>
          (P.srt.perm _ _).mem_iff.trans (P.it.perm _ _).mem_iff
        refine ⟨_, P.srt.run bytesLt (P.it.run [2] st.shared.keys), by rw [sharedTags, if_neg hne]; rfl, rfl, rfl,
          strict_of_sorted id P.srt (by rw [List.map_id]; exact (P.it.perm [2] st.shared.keys).nodup_iff.2 hok),
          fun k => (hmem k).trans (hget k), ?_⟩
        show List.Forall₂ _ _ (reread _)
        rw [reread_map]
        have aux : ∀ ks : List Bytes, (∀ k ∈ ks, k ∈ st.shared.keys) → List.Forall₂ (SharedElement P.hash l) ks
            (List.map rereadOf (ks.map fun k => sharedTagOf (k, (st.shared.get? k).getD []))) := by
          intro ks
          induction ks with
          | nil => intro _; exact .nil
          | cons k ks ih =>
            intro hk
            obtain ⟨s, hs⟩ := Option.isSome_iff_exists.1 (Map.get?_isSome.2 (hk k (by simp)))
            refine .cons ⟨rfl, ?_, ?_, rfl⟩ (ih fun m hm => hk m (by simp [hm]))
            · show attrsBack [(str "md5", b64Encode k)] = _
              rw [attrsBack_tidy (by simp; decide)]
              simp only [List.map_cons, List.map_nil]
              rw [normNewlines_of_no_cr (fun hm => by have := b64Encode_bytes k _ hm; revert this; decide)]
            · rcases E.sharedOnly k s hs with h | ⟨h, hu⟩
              · cases h
              · exact ⟨s, hu, h.symm, by simp only [hs]; exact shared_content (k, s)⟩
        exact aux _ fun k hk => (hmem k).1 hk
      · intro x hx
        obtain ⟨r, hm⟩ := E.marked x hx
        obtain ⟨hne, hat, a, ha, rfl⟩ := id hm
        simp only [isEmptyReference, Bool.or_eq_false_iff, decide_eq_false_iff_not] at hne
        refine ⟨a, ha, hne.1.1, hne.1.2, hne.2, ?_⟩
        intro y hy b' hb' hr
        obtain ⟨r', hm'⟩ := E.marked y hy
        obtain ⟨-, -, c, hc, rfl⟩ := id hm'
        rw [hc] at hb'; cases hb'
        rw [hr] at hm'
        exact hm'.inj hm

end Rbxlx

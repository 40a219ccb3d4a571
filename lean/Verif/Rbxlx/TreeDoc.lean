import Verif.Rbxlx.TreeMain
/-!
# The document that is written for a tree
-/
namespace Rbxlx
open Go Rbxfile Spec

variable {ρ : Type} [DecidableEq ρ]

/-- What is required of a tree so that its document can be read. -/
structure Legible (P : Params) (L : Layout) (h : Heap ρ) (root : Root ρ) (l : Map ρ (Inst ρ)) : Prop where
  text : ReadableText P.F
  forest : Forest h root.instances l
  properties : ∀ x ∈ l, x.2.properties.Ok
  generated : ∀ k, isEmptyReference (P.gen k) = false
  cdata : ∀ x ∈ l, ∀ n s, x.2.properties.get? n = some (.protectedString s) → ¬ [93#8, 93#8, 62#8] <:+: s
  pre : ∀ b ∈ L.pre, XmlSpace b
  indent : ∀ b ∈ L.indent, XmlSpace b
  root : L.excludeRoot = false

theorem metas_tidy (P : Params) (m : Map Bytes Bytes) : Tidy (if P.excludeMetadata then [] else metaTags P m) ∧
    ∀ t ∈ (if P.excludeMetadata then [] else metaTags P m), t.head.startName = str "Meta" := by
  split
  · exact ⟨trivial, by simp⟩
  · constructor
    · rw [tidy_iff]
      intro t ht
      obtain ⟨x, -, rfl⟩ := List.mem_map.1 ht
      exact (metaTag_back x).1
    · intro t ht
      obtain ⟨x, -, rfl⟩ := List.mem_map.1 ht
      rfl

theorem externals_tidy (P : Params) : Tidy (if P.excludeExternal then [] else externalTags) ∧
    ∀ t ∈ (if P.excludeExternal then [] else externalTags), t.head.startName = str "External" := by
  split
  · exact ⟨trivial, by simp⟩
  · refine ⟨⟨tidy_plain (by decide) trivial, tidy_plain (by decide) trivial, trivial⟩, ?_⟩
    intro t ht
    simp only [externalTags, List.mem_cons, List.not_mem_nil, or_false] at ht
    rcases ht with rfl | rfl <;> rfl

theorem shareds_tidy (P : Params) (shared : Map Bytes Bytes) : Tidy (sharedTags P shared) := by
  rw [sharedTags_eq]
  split
  · trivial
  · refine ⟨tidy_node (by decide) ?_, trivial⟩
    rw [tidy_iff]
    intro t ht
    obtain ⟨x, -, rfl⟩ := List.mem_map.1 ht
    exact (sharedTag_back [] x []).1

/-- The document as it is read: metadata, external tags, items, shared strings. -/
theorem encode_document {P : Params} {L : Layout} {h : Heap ρ} {root : Root ρ} {l : Map ρ (Inst ρ)}
    (hw : Legible P L h root l) {b : Bytes} {h1 : Heap ρ} (he : encode P L h root = .ok (b, h1)) :
    ∃ (A B items : List Tag) (shared : Map Bytes Bytes),
      readFrom b = .ok (some (rereadOf ⟨rootHead, A ++ B ++ items ++ sharedTags P shared⟩), L.suffix) ∧
      (∀ t ∈ A, t.head.startName = str "Meta") ∧ (∀ t ∈ B, t.head.startName = str "External") ∧
      (∀ t ∈ items, t.head.startName = str "Item") ∧ shared.Ok ∧
      (∀ s, UsedShared l s → (shared.get? (P.hash s)).isSome) ∧
      (∀ k s, shared.get? k = some s → k = P.hash s ∧ UsedShared l s) := by
  have hforest := hw.forest
  unfold encode codecEncode at he
  cases hea : encodeAll (encodeInstance P (h.length + 1)) [] 0 root.instances ⟨⟨h, [], 0⟩, []⟩ with
  | panic => simp only [hea] at he; cases he
  | err e => simp only [hea] at he; cases he
  | ok res =>
    obtain ⟨items, st⟩ := res
    simp only [hea, Res.ok.injEq, Prod.mk.injEq] at he
    obtain ⟨rfl, rfl⟩ := he
    have E := encodeAll_step hw.generated hforest hw.properties _ _ _ _ _ _ (SameBut.refl h) hea
    let R : ρ → Bytes := fun p => ((st.refs.heap.get? p).map Inst.reference).getD []
    have hR : Agrees R st := by
      rintro p r ⟨-, -, a, ha, rfl⟩
      show ((st.refs.heap.get? p).map Inst.reference).getD [] = _
      rw [ha]; rfl
    obtain ⟨hIt, hIn⟩ := items_tidy hw.text hforest (E.items R hR) hw.cdata
    have hA := metas_tidy P root.metadata
    have hB := externals_tidy P
    have hS := shareds_tidy P st.shared
    have hAll := (tidy_append _ _).2 ⟨(tidy_append _ _).2 ⟨(tidy_append _ _).2 ⟨hA.1, hB.1⟩, hIt⟩, hS⟩
    refine ⟨_, _, items, st.shared, read_written hw.pre hw.indent hw.root hAll, hA.2, hB.2, hIn, ?_, E.sharedAll, ?_⟩
    · exact E.step.ok (by unfold Map.Ok; simp)
    · intro k s hk
      rcases E.sharedOnly k s hk with h | h
      · cases h
      · exact h

theorem shared_content (x : Bytes × Bytes) : b64Decode (getContent (rereadOf (sharedTagOf x))) = some x.2 := by
  unfold sharedTagOf
  rw [content_text _ _ rfl, Props.normText_of_no_cr (wrap_no_cr x.2), b64Decode_wrap]

theorem shared_nodup (P : Params) {shared : Map Bytes Bytes} (hok : shared.Ok) : (sharedList P shared).Nodup := by
  have hk : (P.srt.run bytesLt (P.it.run [2] shared.keys)).Nodup :=
    ((P.srt.perm _ _).trans (P.it.perm _ _)).nodup_iff.2 hok
  unfold sharedList
  unfold List.Nodup at *
  rw [List.pairwise_map]
  exact hk.imp fun h e => h (congrArg Prod.fst e)

end Rbxlx

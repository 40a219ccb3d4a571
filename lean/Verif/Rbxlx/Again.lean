import Verif.Rbxlx.SameXml
/-!
# Encoding a tree once more
-/
namespace Rbxlx
open Go Rbxfile Spec

variable {ρ : Type} [DecidableEq ρ]

/-- The references registered in a state are those of the heap `h1`. -/
def Foretold (h1 : Heap ρ) (st : EncState ρ) : Prop :=
  ∀ p r, Marked st.refs p r → ∃ a, h1.get? p = some a ∧ a.reference = r

theorem Foretold.back {h1 : Heap ρ} {gen : Nat → Bytes} {st st' : EncState ρ} (h : Foretold h1 st') (hs : Step gen st st') :
    Foretold h1 st := fun p r hm => h p r (hs.marked p r hm)

section
variable {P Q : Params} (hq : SameSettings P Q) (hgen : ∀ k, isEmptyReference (P.gen k) = false) {h1 : Heap ρ} {K : ρ → Prop}
  (hK : Known h1 K)
include hq hgen hK

theorem encodeProperty_again {st st' st2 : EncState ρ} {v : Value ρ} {t : Option Tag} (he : encodeProperty P st v = .ok (t, st'))
    (hf : Foretold h1 st') (hv : ∀ p, v = .reference (some p) → K p) (hu : Unchanged h1 K st2) (hs : st2.shared = st.shared) :
    ∃ s2, encodeProperty Q st2 v = .ok (t, s2) ∧ Unchanged h1 K s2 ∧ s2.shared = st'.shared := by
  by_cases hr : ∃ p, v = .reference (some p)
  · obtain ⟨p, rfl⟩ := hr
    simp only [encodeProperty] at he
    split at he
    · cases he
    · cases he
    · rename_i r refs hr
      simp only [Res.ok.injEq, Prod.mk.injEq] at he
      obtain ⟨rfl, rfl⟩ := he
      obtain ⟨a, ha, rfl⟩ := hf p r (getRef_step hgen hr).1
      obtain ⟨r2, g2, k2⟩ := getRef_known hK Q.gen Q.attempts hu (hv p rfl) ha
      refine ⟨⟨r2, st2.shared⟩, ?_, k2 st2.shared hu.shared, hs⟩
      simp only [encodeProperty, g2, hq.F, hq.hash]
  · by_cases h1 : ∃ s, v = .sharedString s
    · obtain ⟨s, rfl⟩ := h1
      simp only [encodeProperty, Res.ok.injEq, Prod.mk.injEq] at he
      obtain ⟨rfl, rfl⟩ := he
      refine ⟨{ st2 with shared := if (st2.shared.get? (P.hash s)).isSome then st2.shared else st2.shared.set (P.hash s) s },
        by simp only [encodeProperty, hq.F, hq.hash], ⟨hu.heap, hu.refs, ?_⟩, ?_⟩
      · simp only
        split
        · exact hu.shared
        · exact Map.ok_set hu.shared _ _
      · simp only [hs]
    · have e1 : ∀ (P : Params) (st : EncState ρ), encodeProperty P st v = .ok (encodeValue P.F P.hash (str "null") v, st) := by
        intro P st
        unfold encodeProperty
        split
        · exact absurd ⟨_, rfl⟩ hr
        · exact absurd ⟨_, rfl⟩ h1
        · rfl
      rw [e1] at he
      simp only [Res.ok.injEq, Prod.mk.injEq] at he
      obtain ⟨rfl, rfl⟩ := he
      exact ⟨st2, by rw [e1, hq.F, hq.hash], hu, hs⟩

theorem encodeProps_again {a : Map Bytes (Value ρ)} (ha : ∀ n p, a.get? n = some (.reference (some p)) → K p) :
    ∀ (ns : List Bytes) {st st' st2 : EncState ρ} {ts : List Tag}, encodeProps P a ns st = .ok (ts, st') → Foretold h1 st' →
    Unchanged h1 K st2 → st2.shared = st.shared →
    ∃ s2, encodeProps Q a ns st2 = .ok (ts, s2) ∧ Unchanged h1 K s2 ∧ s2.shared = st'.shared
  | [], st, st', st2, ts, he, _, hu, hs => by
    simp only [encodeProps, Res.ok.injEq, Prod.mk.injEq] at he
    obtain ⟨rfl, rfl⟩ := he
    exact ⟨st2, rfl, hu, hs⟩
  | n :: ns, st, st', st2, ts, he, hf, hu, hs => by
    rw [encodeProps] at he
    cases hv : a.get? n with
    | none =>
      simp only [hv] at he
      obtain ⟨s2, e1, e2⟩ := encodeProps_again ha ns he hf hu hs
      exact ⟨s2, by rw [encodeProps]; simp only [hv]; exact e1, e2⟩
    | some v =>
      simp only [hv] at he
      split at he
      · cases he
      · cases he
      · rename_i t st1 h3
        split at he
        · cases he
        · cases he
        · rename_i ts1 st4 h4
          simp only [Res.ok.injEq, Prod.mk.injEq] at he
          obtain ⟨rfl, rfl⟩ := he
          obtain ⟨s, e1, e2, e3⟩ := encodeProperty_again hq hgen hK h3 (hf.back (encodeProps_step hgen a ns h4).1)
            (fun p e => ha n p (by rw [hv, e])) hu hs
          obtain ⟨s2, f1, f2⟩ := encodeProps_again ha ns h4 hf e2 e3
          exact ⟨s2, by rw [encodeProps]; simp only [hv, e1, f1], f2⟩

theorem encodeAll_again {h : Heap ρ} (h01 : SameBut h h1) {ps : List ρ} {l : Map ρ (Inst ρ)} (f : Forest h ps l)
    (hm : ∀ p, Mentioned l p → K p) (hok : ∀ x ∈ l, x.2.properties.Ok) :
    ∀ (fuel fuel' : Nat) (path : List Nat) (i : Nat) {st st' st2 : EncState ρ} {items : List Tag}, l.length ≤ fuel' →
    SameBut h st.refs.heap → encodeAll (encodeInstance P fuel) path i ps st = .ok (items, st') → Foretold h1 st' →
    Unchanged h1 K st2 → st2.shared = st.shared →
    ∃ s2, encodeAll (encodeInstance Q fuel') path i ps st2 = .ok (items, s2) ∧ Unchanged h1 K s2 ∧ s2.shared = st'.shared := by
  induction f with
  | nil =>
    intro fuel fuel' path i st st' st2 items _ _ he _ hu hs
    simp only [encodeAll, Res.ok.injEq, Prod.mk.injEq] at he
    obtain ⟨rfl, rfl⟩ := he
    exact ⟨st2, rfl, hu, hs⟩
  | @cons p ps inst below rest hp f1 f2 ih1 ih2 =>
    intro fuel fuel' path i st st' st2 items hl hsame he hf hu hs
    have sub : ∀ {l1 l2 : Map ρ (Inst ρ)} {x : ρ}, (∀ y ∈ l1, y ∈ l2) → Mentioned l1 x → Mentioned l2 x := by
      intro l1 l2 x hs hm
      rcases hm with hm | ⟨y, hy, hn⟩
      · obtain ⟨y, hy, rfl⟩ := List.mem_map.1 hm
        exact .inl (List.mem_map.2 ⟨y, hs y hy, rfl⟩)
      · exact .inr ⟨y, hs y hy, hn⟩
    rw [List.length_cons, List.length_append] at hl
    obtain ⟨fuel', rfl⟩ : ∃ k, fuel' = k + 1 := ⟨fuel' - 1, by omega⟩
    rw [encodeAll] at he
    split at he
    · cases he
    · cases he
    · rename_i t st1 h1'
      split at he
      · cases he
      · cases he
      · rename_i ts st5 h2
        simp only [Res.ok.injEq, Prod.mk.injEq] at he
        obtain ⟨rfl, rfl⟩ := he
        cases fuel with
        | zero => simp [encodeInstance] at h1'
        | succ fuel =>
          rw [encodeInstance] at h1'
          split at h1'
          · cases h1'
          · cases h1'
          · rename_i ref refs hr
            obtain ⟨m1, m2, m3⟩ := getRef_step hgen hr
            obtain ⟨r0, hr0⟩ := (hsame.trans m2) p inst hp
            rw [hr0] at h1'
            simp only at h1'
            rw [sortedNames_names P _ (hok (p, inst) (by simp))] at h1'
            split at h1'
            · cases h1'
            · cases h1'
            · rename_i props st3 h3
              have sp := (encodeProps_step hgen inst.properties _ h3).1
              split at h1'
              · cases h1'
              · cases h1'
              · rename_i kids st4 h4
                simp only [Res.ok.injEq, Prod.mk.injEq] at h1'
                obtain ⟨rfl, rfl⟩ := h1'
                have hs1 : SameBut h st3.refs.heap := hsame.trans (m2.trans sp.heap)
                have sk := (encodeAll_step hgen f1 (fun x hx => hok x (by simp [hx])) _ _ _ _ _ _ hs1 h4).step
                have hs2 : SameBut h st4.refs.heap := hs1.trans sk.heap
                have sr := (encodeAll_step hgen f2 (fun x hx => hok x (by simp [hx])) _ _ _ _ _ _ hs2 h2).step
                obtain ⟨a, ha, rfl⟩ := hf p ref ((sp.trans (sk.trans sr)).marked _ _ m1)
                obtain ⟨r1, hr1⟩ := h01 p inst hp
                obtain ⟨g, g1, g2⟩ := getRef_known hK Q.gen Q.attempts hu (hm p (.inl (by simp))) ha
                have hg : g.heap = h1 := (g2 st2.shared hu.shared).heap
                obtain ⟨s3, a1, a2, a3⟩ := encodeProps_again hq hgen hK
                  (fun n q hq => hm q (.inr ⟨(p, inst), by simp, n, hq⟩)) _ h3 (hf.back (sk.trans sr)) (g2 st2.shared hu.shared) hs
                obtain ⟨s4, b1, b2, b3⟩ := ih1 (fun x hx => hm x (sub (by simp +contextual) hx)) (fun x hx => hok x (by simp [hx]))
                  fuel fuel' _ _ (by omega) hs1 h4 (hf.back sr) a2 a3
                obtain ⟨s5, c1, c2, c3⟩ := ih2 (fun x hx => hm x (sub (by simp +contextual) hx)) (fun x hx => hok x (by simp [hx]))
                  (fuel + 1) (fuel' + 1) _ _ (by omega) hs2 h2 hf b2 b3
                refine ⟨s5, ?_, c2, c3⟩
                have i2 : encodeInstance Q (fuel' + 1) (i :: path) p st2 =
                    .ok (itemTag P inst.className a.reference props kids, s4) := by
                  rw [encodeInstance]
                  simp only [g1, hg, hr1]
                  rw [sortedNames_names Q _ (hok (p, inst) (by simp))]
                  simp only [a1, b1, itemTag_settings hq]
                rw [encodeAll]
                simp only [i2, c1]

end

/-- After a tree has been encoded, its instances and those it refers to have different References. -/
theorem encode_distinct {P : Params} (hgen : ∀ k, isEmptyReference (P.gen k) = false) {L : Layout} {h h1 : Heap ρ} {root : Root ρ}
    {l : Map ρ (Inst ρ)} (ht : Trees h root.instances l) (hok : ∀ x ∈ l, x.2.properties.Ok) {b : Bytes}
    (he : encode P L h root = .ok (b, h1)) : SameBut h h1 ∧ DistinctReferences h1 l := by
  unfold encode codecEncode at he
  cases hea : encodeAll (encodeInstance P (h.length + 1)) [] 0 root.instances ⟨⟨h, [], 0⟩, []⟩ with
  | panic => simp only [hea] at he; cases he
  | err e => simp only [hea] at he; cases he
  | ok res =>
    obtain ⟨items, st⟩ := res
    simp only [hea, Res.ok.injEq, Prod.mk.injEq] at he
    obtain ⟨-, rfl⟩ := he
    have E := encodeAll_step hgen ht.1 hok _ _ _ _ _ _ (SameBut.refl h) hea
    have hm : ∀ p, Mentioned l p → ∃ r, Marked st.refs p r := by
      rintro p (hp | ⟨x, hx, n, hn⟩)
      · obtain ⟨x, hx, rfl⟩ := List.mem_map.1 hp
        exact E.marked x hx
      · exact E.targets x hx n p hn
    refine ⟨E.step.heap, fun p hp => ?_, fun p q a b hp hq ha hb e => ?_⟩
    · obtain ⟨r, h1, -, a, ha, rfl⟩ := hm p hp
      exact ⟨a, ha, h1⟩
    · obtain ⟨r, m⟩ := hm p hp
      obtain ⟨r', m'⟩ := hm q hq
      obtain ⟨-, -, a', ha', e1⟩ := id m
      obtain ⟨-, -, b', hb', e2⟩ := id m'
      rw [ha] at ha'; cases ha'
      rw [hb] at hb'; cases hb'
      rw [← e1, e] at m
      rw [← e2] at m'
      exact m.inj m'

/-- A tree that has been encoded is encoded once more as the same file. -/
theorem encode_again {P Q : Params} (hq : SameSettings P Q) (hgen : ∀ k, isEmptyReference (P.gen k) = false) {L : Layout}
    {h h1 : Heap ρ} {root : Root ρ} {l : Map ρ (Inst ρ)} (ht : Trees h root.instances l)
    (hok : ∀ x ∈ l, x.2.properties.Ok) (hmeta : root.metadata.Ok) {b : Bytes} (he : encode P L h root = .ok (b, h1)) :
    encode Q L h1 root = .ok (b, h1) := by
  obtain ⟨h01, hd⟩ := encode_distinct hgen ht hok he
  have K : Known h1 (Mentioned l) := ⟨hd.present, hd.different⟩
  unfold encode codecEncode at he
  cases hea : encodeAll (encodeInstance P (h.length + 1)) [] 0 root.instances ⟨⟨h, [], 0⟩, []⟩ with
  | panic => simp only [hea] at he; cases he
  | err e => simp only [hea] at he; cases he
  | ok res =>
    obtain ⟨items, st⟩ := res
    simp only [hea, Res.ok.injEq, Prod.mk.injEq] at he
    obtain ⟨rfl, rfl⟩ := he
    have hlen : l.length ≤ st.refs.heap.length + 1 := by
      have hn : (l.map Prod.fst).Nodup := ht.2
      have := path_length hn (h := st.refs.heap) fun p hp => by
        obtain ⟨a, ha, -⟩ := hd.present p (.inl hp)
        rw [ha]; rfl
      simp at this
      omega
    obtain ⟨s2, e1, e2, e3⟩ := encodeAll_again hq hgen K h01 ht.1 (fun _ h => h) hok (h.length + 1) (st.refs.heap.length + 1) [] 0
      (st2 := ⟨⟨st.refs.heap, [], 0⟩, []⟩) hlen (SameBut.refl h) hea (fun p r hm => hm.2.2)
      ⟨rfl, (fun r p hp => by cases hp), Map.ok_nil⟩ rfl
    have hsh : s2.shared.Ok := e2.shared
    unfold encode codecEncode
    simp only [e1, e2.heap, e3, hq.excludeMetadata, hq.excludeExternal, metaTags_perm P Q hmeta hmeta (fun _ => rfl),
      sharedTags_perm P Q (e3 ▸ hsh) (e3 ▸ hsh) (fun _ => rfl)]

end Rbxlx

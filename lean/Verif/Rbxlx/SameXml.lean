import Verif.Rbxlx.Resave
import Verif.Spec.SameXml
/-!
# Encoding trees with distinct references
-/
namespace Rbxlx
open Go Rbxfile Spec

variable {ρ : Type} [DecidableEq ρ]

/-- The state while encoding a tree of `h` with distinct references: nothing has been changed. -/
structure Unchanged (h : Heap ρ) (K : ρ → Prop) (st : EncState ρ) : Prop where
  heap : st.refs.heap = h
  refs : ∀ r p, st.refs.refs.at r = some p → K p ∧ ∃ a, h.get? p = some a ∧ a.reference = r
  shared : st.shared.Ok

/-- What is known about the instances in `K`. -/
structure Known (h : Heap ρ) (K : ρ → Prop) : Prop where
  present : ∀ p, K p → ∃ a, h.get? p = some a ∧ isEmptyReference a.reference = false
  different : ∀ p q a b, K p → K q → h.get? p = some a → h.get? q = some b → a.reference = b.reference → p = q

theorem getRef_known {h : Heap ρ} {K : ρ → Prop} (hK : Known h K) (gen : Nat → Bytes) (fuel : Nat) {st : EncState ρ}
    (hst : Unchanged h K st) {p : ρ} (hp : K p) {a : Inst ρ} (ha : h.get? p = some a) :
    ∃ refs, getRef gen fuel st.refs (some p) = .ok (a.reference, refs) ∧ ∀ shared, Map.Ok shared → Unchanged h K ⟨refs, shared⟩ := by
  obtain ⟨a', ha', hne⟩ := hK.present p hp
  rw [ha] at ha'; cases ha'
  have hc : (isEmptyReference a.reference || ((st.refs.refs.at a.reference).isSome &&
      decide (st.refs.refs.at a.reference ≠ some p))) = false := by
    rw [hne]
    cases hat : st.refs.refs.at a.reference with
    | none => rfl
    | some q =>
      obtain ⟨hq, b, hb, hr⟩ := hst.refs _ q hat
      have := hK.different q p b a hq hp hb ha hr
      subst this
      simp
  refine ⟨⟨st.refs.heap, st.refs.refs.set a.reference (some p), st.refs.pos⟩, ?_, fun shared hs => ⟨hst.heap, ?_, hs⟩⟩
  · simp only [getRef, hst.heap, ha, hc]
    rfl
  · intro r q hq
    simp only at hq
    rw [References.at_set] at hq
    split at hq
    · rename_i e
      cases hq
      exact ⟨hp, a, ha, e.symm⟩
    · exact hst.refs r q hq

section
variable {P Q : Params} (hq : SameSettings P Q) {h h' : Heap ρ} {K K' : ρ → Prop} (hK : Known h K) (hK' : Known h' K')
include hq hK hK'

theorem encodeProperty_pair {st st' : EncState ρ} (hst : Unchanged h K st) (hst' : Unchanged h' K' st')
    (hs : st'.shared = st.shared) {v w : Value ρ} (hvw : SameXmlValue h h' v w)
    (hv : ∀ p, v = .reference (some p) → K p) (hw : ∀ p, w = .reference (some p) → K' p) :
    ∃ t s s', encodeProperty P st v = .ok (t, s) ∧ encodeProperty Q st' w = .ok (t, s') ∧
      Unchanged h K s ∧ Unchanged h' K' s' ∧ s'.shared = s.shared := by
  by_cases hr : ∃ p q, v = .reference (some p) ∧ w = .reference (some q)
  · obtain ⟨p, q, rfl, rfl⟩ := hr
    obtain ⟨a, b, ha, hb, hab⟩ := hvw
    obtain ⟨r1, g1, k1⟩ := getRef_known hK P.gen P.attempts hst (hv p rfl) ha
    obtain ⟨r2, g2, k2⟩ := getRef_known hK' Q.gen Q.attempts hst' (hw q rfl) hb
    refine ⟨encodeValue P.F P.hash a.reference (.reference (some p)), _, _, ?_, ?_, k1 st.shared hst.shared, k2 st'.shared hst'.shared, hs⟩
    · simp only [encodeProperty, g1]
    · simp only [encodeProperty, g2, encodeValue, hab]
  · have e : v = w := by
      unfold SameXmlValue at hvw
      split at hvw
      · exact absurd ⟨_, _, rfl, rfl⟩ hr
      · exact hvw
    subst e
    by_cases h1 : ∃ s, v = .sharedString s
    · obtain ⟨s, rfl⟩ := h1
      have hok : Map.Ok (if (st.shared.get? (P.hash s)).isSome then st.shared else st.shared.set (P.hash s) s) := by
        split
        · exact hst.shared
        · exact Map.ok_set hst.shared _ _
      refine ⟨encodeValue P.F P.hash (str "null") (.sharedString s),
        { st with shared := if (st.shared.get? (P.hash s)).isSome then st.shared else st.shared.set (P.hash s) s },
        { st' with shared := if (st.shared.get? (P.hash s)).isSome then st.shared else st.shared.set (P.hash s) s },
        rfl, ?_, ⟨hst.heap, hst.refs, hok⟩, ⟨hst'.heap, hst'.refs, hok⟩, rfl⟩
      simp only [encodeProperty, hq.F, hq.hash, hs]
    · have e1 : ∀ (P : Params) (st : EncState ρ), encodeProperty P st v = .ok (encodeValue P.F P.hash (str "null") v, st) := by
        intro P st
        unfold encodeProperty
        split
        · exact absurd ⟨_, _, rfl, rfl⟩ hr
        · exact absurd ⟨_, rfl⟩ h1
        · rfl
      exact ⟨_, st, st', e1 P st, by rw [e1, hq.F, hq.hash], hst, hst', hs⟩

theorem encodeProps_pair {a b : Map Bytes (Value ρ)} (hab : ∀ n, SameXmlProperty h h' (a.get? n) (b.get? n))
    (ha : ∀ n p, a.get? n = some (.reference (some p)) → K p) (hb : ∀ n p, b.get? n = some (.reference (some p)) → K' p) :
    ∀ (ns : List Bytes) {st st' : EncState ρ}, Unchanged h K st → Unchanged h' K' st' → st'.shared = st.shared →
    ∃ ts s s', encodeProps P a ns st = .ok (ts, s) ∧ encodeProps Q b ns st' = .ok (ts, s') ∧
      Unchanged h K s ∧ Unchanged h' K' s' ∧ s'.shared = s.shared
  | [], st, st', h1, h2, h3 => ⟨[], st, st', rfl, rfl, h1, h2, h3⟩
  | n :: ns, st, st', h1, h2, h3 => by
    have hn := hab n
    have ha' := ha n
    have hb' := hb n
    cases hv : a.get? n with
    | none =>
      cases hw : b.get? n with
      | some w => rw [hv, hw] at hn; exact absurd hn id
      | none =>
        obtain ⟨ts, s, s', e1, e2, e3⟩ := encodeProps_pair hab ha hb ns h1 h2 h3
        refine ⟨ts, s, s', ?_, ?_, e3⟩
        · rw [encodeProps]; simp only [hv]; exact e1
        · rw [encodeProps]; simp only [hw]; exact e2
    | some v =>
      cases hw : b.get? n with
      | none => rw [hv, hw] at hn; exact absurd hn id
      | some w =>
        rw [hv, hw] at hn
        rw [hv] at ha'
        rw [hw] at hb'
        obtain ⟨t, s, s', e1, e2, k1, k2, k3⟩ := encodeProperty_pair hq hK hK' h1 h2 h3 hn
          (fun p e => ha' p (by rw [e])) (fun p e => hb' p (by rw [e]))
        obtain ⟨ts, u, u', f1, f2, f3⟩ := encodeProps_pair hab ha hb ns k1 k2 k3
        refine ⟨(t.map (named n)).toList ++ ts, u, u', ?_, ?_, f3⟩
        · rw [encodeProps]; simp only [hv, e1, f1]
        · rw [encodeProps]; simp only [hw, e2, f2]

omit hK hK' in
theorem itemTag_settings (cls r : Bytes) (ps ks : List Tag) : itemTag Q cls r ps ks = itemTag P cls r ps ks := by
  unfold itemTag; rw [hq.excludeReferent]

omit hq hK hK' in
theorem sortedNames_names (P : Params) (path : List Nat) {a : Map Bytes (Value ρ)} (ha : a.Ok) :
    sortedNames P path a = names a := by
  unfold sortedNames names
  exact Sorter.unique P.srt Sorter.insertion id (P.it.perm _ _) (by
    rw [List.map_id]; exact (P.it.perm _ a.keys).nodup_iff.2 ha)

theorem encodeAll_pair {ps qs : List ρ} (hpq : SameXmlForest h h' ps qs) : ∀ {l l' : Map ρ (Inst ρ)} (_ : Forest h ps l)
    (_ : Forest h' qs l') (_ : ∀ p, Mentioned l p → K p) (_ : ∀ p, Mentioned l' p → K' p)
    (_ : ∀ x ∈ l, x.2.properties.Ok) (_ : ∀ x ∈ l', x.2.properties.Ok)
    (fuel fuel' : Nat) (path : List Nat) (i : Nat) {st st' : EncState ρ} (_ : l.length ≤ fuel) (_ : l'.length ≤ fuel')
    (_ : Unchanged h K st) (_ : Unchanged h' K' st') (_ : st'.shared = st.shared),
    ∃ ts s s', encodeAll (encodeInstance P fuel) path i ps st = .ok (ts, s) ∧
      encodeAll (encodeInstance Q fuel') path i qs st' = .ok (ts, s') ∧
      Unchanged h K s ∧ Unchanged h' K' s' ∧ s'.shared = s.shared := by
  induction hpq with
  | nil =>
    intro l l' _ _ _ _ _ _ fuel fuel' path i st st' _ _ h1 h2 h3
    exact ⟨[], st, st', rfl, rfl, h1, h2, h3⟩
  | @cons p q ps qs a b hp hq' hcls href hprops hkids hrest ihk ihr =>
    intro l l' f f' m m' ok ok' fuel fuel' path i st st' hl hl' h1 h2 h3
    cases f with
    | @cons _ _ inst below rest gp f1 f2 =>
    rw [hp] at gp; cases gp
    cases f' with
    | @cons _ _ inst' below' rest' gq f1' f2' =>
    rw [hq'] at gq; cases gq
    rw [List.length_cons, List.length_append] at hl hl'
    obtain ⟨fuel, rfl⟩ : ∃ k, fuel = k + 1 := ⟨fuel - 1, by omega⟩
    obtain ⟨fuel', rfl⟩ : ∃ k, fuel' = k + 1 := ⟨fuel' - 1, by omega⟩
    have sub : ∀ {l1 l2 : Map ρ (Inst ρ)} {x : ρ}, (∀ y ∈ l1, y ∈ l2) → Mentioned l1 x → Mentioned l2 x := by
      intro l1 l2 x hs hm
      rcases hm with hm | ⟨y, hy, hn⟩
      · obtain ⟨y, hy, rfl⟩ := List.mem_map.1 hm
        exact .inl (List.mem_map.2 ⟨y, hs y hy, rfl⟩)
      · exact .inr ⟨y, hs y hy, hn⟩
    obtain ⟨r1, g1, k1⟩ := getRef_known hK P.gen P.attempts h1 (m p (.inl (by simp))) hp
    obtain ⟨r2, g2, k2⟩ := getRef_known hK' Q.gen Q.attempts h2 (m' q (.inl (by simp))) hq'
    have hnames : sortedNames P (i :: path) a.properties = sortedNames Q (i :: path) b.properties := by
      have o1 := ok (p, a) (by simp)
      have o2 := ok' (q, b) (by simp)
      rw [sortedNames_names P _ o1, sortedNames_names Q _ o2]
      refine (names_perm o1 o2 fun n => ?_).symm
      have := hprops n
      cases hv : a.properties.get? n <;> cases hw : b.properties.get? n <;> rw [hv, hw] at this <;>
        first | rfl | exact absurd this id
    obtain ⟨ts, s, s', e1, e2, u1, u2, u3⟩ := encodeProps_pair hq hK hK' hprops
      (fun n x hx => m x (.inr ⟨(p, a), by simp, n, hx⟩)) (fun n x hx => m' x (.inr ⟨(q, b), by simp, n, hx⟩))
      (sortedNames P (i :: path) a.properties) (k1 st.shared h1.shared) (k2 st'.shared h2.shared) h3
    obtain ⟨kids, t, t', c1, c2, v1, v2, v3⟩ := ihk f1 f1' (fun x hx => m x (sub (by simp +contextual) hx))
      (fun x hx => m' x (sub (by simp +contextual) hx)) (fun x hx => ok x (by simp [hx])) (fun x hx => ok' x (by simp [hx]))
      fuel fuel' (i :: path) 0 (by omega) (by omega) u1 u2 u3
    obtain ⟨items, w, w', d1, d2, x1, x2, x3⟩ := ihr f2 f2' (fun x hx => m x (sub (by simp +contextual) hx))
      (fun x hx => m' x (sub (by simp +contextual) hx)) (fun x hx => ok x (by simp [hx])) (fun x hx => ok' x (by simp [hx]))
      (fuel + 1) (fuel' + 1) path (i + 1) (by omega) (by omega) v1 v2 v3
    have hr1 : r1.heap = h := (k1 st.shared h1.shared).heap
    have hr2 : r2.heap = h' := (k2 st'.shared h2.shared).heap
    have i1 : encodeInstance P (fuel + 1) (i :: path) p st = .ok (itemTag P a.className a.reference ts kids, t) := by
      rw [encodeInstance]
      simp only [g1, hr1, hp, e1, c1]
    have i2 : encodeInstance Q (fuel' + 1) (i :: path) q st' = .ok (itemTag P a.className a.reference ts kids, t') := by
      rw [encodeInstance, hnames] at *
      simp only [g2, hr2, hq', e2, c2, itemTag_settings hq, hcls, href]
    refine ⟨itemTag P a.className a.reference ts kids :: items, w, w', ?_, ?_, x1, x2, x3⟩
    · rw [encodeAll]; simp only [i1, d1]
    · rw [encodeAll]; simp only [i2, d2]

end

/-- The same tree is written as the same file. -/
theorem encode_pair {P Q : Params} (hq : SameSettings P Q) (L : Layout) {h h' : Heap ρ} {root root' : Root ρ}
    {l l' : Map ρ (Inst ρ)} (ht : Trees h root.instances l) (ht' : Trees h' root'.instances l')
    (ok : ∀ x ∈ l, x.2.properties.Ok) (ok' : ∀ x ∈ l', x.2.properties.Ok)
    (hd : DistinctReferences h l) (hd' : DistinctReferences h' l')
    (hs : SameXmlForest h h' root.instances root'.instances)
    (hm : root.metadata.Ok) (hm' : root'.metadata.Ok) (he : ∀ k, root'.metadata.get? k = root.metadata.get? k) :
    ∃ b, encode P L h root = .ok (b, h) ∧ encode Q L h' root' = .ok (b, h') := by
  have K : Known h (Mentioned l) := ⟨hd.present, hd.different⟩
  have K' : Known h' (Mentioned l') := ⟨hd'.present, hd'.different⟩
  have start : ∀ (h : Heap ρ) (K : ρ → Prop), Unchanged h K ⟨⟨h, [], 0⟩, []⟩ := fun h K => ⟨rfl, (fun r p hp => by cases hp), Map.ok_nil⟩
  obtain ⟨ts, s, s', e1, e2, u1, u2, u3⟩ := encodeAll_pair hq K K' hs ht.1 ht'.1 (fun _ h => h) (fun _ h => h) ok ok'
    (h.length + 1) (h'.length + 1) [] 0 (by have := Rbxl.Trees.length_le ht; omega) (by have := Rbxl.Trees.length_le ht'; omega)
    (start h _) (start h' _) rfl
  have hsh : s.shared.Ok := u1.shared
  refine ⟨writeTo ⟨L.pre, if L.indent = [] && !L.noDefaultIndent then str "\t" else L.indent, L.suffix, L.excludeRoot,
      some ⟨rootHead, (if P.excludeMetadata then [] else metaTags P root.metadata) ++
      (if P.excludeExternal then [] else externalTags) ++ ts ++ sharedTags P s.shared⟩⟩, ?_, ?_⟩
  · unfold encode codecEncode
    simp only [e1, u1.heap]
  · unfold encode codecEncode
    simp only [e2, u2.heap, u3, hq.excludeMetadata, hq.excludeExternal, metaTags_perm P Q hm hm' he,
      sharedTags_perm P Q hsh hsh (fun _ => rfl)]

end Rbxlx

import Verif.Rbxlx.TreeDoc
import Verif.Rbxfile.Finite
/-!
# Encoding a tree returns
-/
namespace Rbxlx
open Go Rbxfile Spec

variable {ρ : Type} [DecidableEq ρ]

/-- The number of references that are asked for at most. -/
def demand (l : Map ρ (Inst ρ)) : Nat := (l.map fun x => 1 + x.2.properties.length).sum

theorem SameBut.isSome {h h' : Heap ρ} (hs : SameBut h h') {p : ρ} (hp : (h.get? p).isSome) : (h'.get? p).isSome := by
  obtain ⟨a, ha⟩ := Option.isSome_iff_exists.1 hp
  obtain ⟨r, hr⟩ := hs p a ha
  rw [hr]; rfl

theorem encodeProps_total {P : Params} {n : Nat} (hgen : ∀ k, isEmptyReference (P.gen k) = false)
    (hf : Fresh P.gen n P.attempts) {h : Heap ρ} (props : Map Bytes (Value ρ))
    (hrefs : ∀ m q, props.get? m = some (.reference (some q)) → (h.get? q).isSome) :
    ∀ (ns : List Bytes) (st : EncState ρ), SameBut h st.refs.heap → st.refs.refs.length + ns.length ≤ n + 1 →
    ∃ ts st', encodeProps P props ns st = .ok (ts, st') ∧ st'.refs.refs.length ≤ st.refs.refs.length + ns.length ∧
      SameBut h st'.refs.heap
  | [], st, hs, _ => ⟨[], st, rfl, by simp, hs⟩
  | m :: ns, st, hs, hlen => by
    rw [List.length_cons] at hlen
    rw [encodeProps]
    cases hm : props.get? m with
    | none =>
      obtain ⟨ts, st', h1, h2, h3⟩ := encodeProps_total hgen hf props hrefs ns st hs (by omega)
      exact ⟨ts, st', h1, by simp; omega, h3⟩
    | some v =>
      have hp : ∃ t st1, encodeProperty P st v = .ok (t, st1) ∧ st1.refs.refs.length ≤ st.refs.refs.length + 1 ∧
          SameBut h st1.refs.heap := by
        unfold encodeProperty
        split
        · rename_i q
          obtain ⟨r, refs, g1, g2⟩ := getRef_total hf (st := st.refs) (by omega) (q := some q) (by
            rintro p ⟨⟩
            exact hs.isSome (hrefs m _ hm))
          rw [g1]
          exact ⟨_, _, rfl, g2, hs.trans (getRef_step hgen g1).2.1⟩
        · exact ⟨_, _, rfl, by simp, hs⟩
        · exact ⟨_, _, rfl, by simp, hs⟩
      obtain ⟨t, st1, h1, h2, h3⟩ := hp
      obtain ⟨ts, st', g1, g2, g3⟩ := encodeProps_total hgen hf props hrefs ns st1 h3 (by omega)
      simp only [h1, g1]
      exact ⟨_, _, rfl, by rw [List.length_cons]; omega, g3⟩

theorem encodeAll_total {P : Params} {n : Nat} (hgen : ∀ k, isEmptyReference (P.gen k) = false)
    (hf : Fresh P.gen n P.attempts) {h : Heap ρ} {ps : List ρ} {l : Map ρ (Inst ρ)} (f : Forest h ps l)
    (hrefs : ∀ x ∈ l, ∀ m q, x.2.properties.get? m = some (.reference (some q)) → (h.get? q).isSome) :
    ∀ (fuel : Nat) (path : List Nat) (i : Nat) (st : EncState ρ) (anc : List ρ), anc.Nodup →
    (∀ q ∈ anc, (h.get? q).isSome ∧ q ∉ l.map Prod.fst) → h.length + 1 ≤ fuel + anc.length → SameBut h st.refs.heap →
    st.refs.refs.length + demand l ≤ n + 1 →
    ∃ items st', encodeAll (encodeInstance P fuel) path i ps st = .ok (items, st') ∧
      st'.refs.refs.length ≤ st.refs.refs.length + demand l ∧ SameBut h st'.refs.heap := by
  induction f with
  | nil => intro fuel path i st anc _ _ _ hs _; exact ⟨[], st, rfl, by simp, hs⟩
  | @cons p ps inst below rest hp f1 f2 ih1 ih2 =>
    intro fuel path i st anc hnd hanc hfuel hs hlen
    have hdem : demand ((p, inst) :: (below ++ rest)) = 1 + inst.properties.length + (demand below + demand rest) := by
      simp [demand]
    have hlong := path_length hnd fun q hq => (hanc q hq).1
    rw [hdem] at hlen ⊢
    obtain ⟨fuel, rfl⟩ : ∃ k, fuel = k + 1 := ⟨fuel - 1, by omega⟩
    obtain ⟨r, refs, g1, g2⟩ := getRef_total hf (st := st.refs) (by omega) (q := some p) (by
      rintro q ⟨⟩
      exact hs.isSome (by rw [hp]; rfl))
    have hs1 : SameBut h refs.heap := hs.trans (getRef_step hgen g1).2.1
    obtain ⟨r0, hr0⟩ := hs1 p inst hp
    have hnames : (sortedNames P (i :: path) inst.properties).length = inst.properties.length := by
      unfold sortedNames
      rw [(P.srt.perm _ _).length_eq, (P.it.perm _ _).length_eq]
      simp [Map.keys]
    obtain ⟨props, st2, p1, p2, p3⟩ := encodeProps_total hgen hf (h := h) inst.properties
      (hrefs (p, inst) (by simp)) (sortedNames P (i :: path) inst.properties) { st with refs := refs } hs1
      (by simp only; omega)
    simp only at p2
    obtain ⟨kids, st3, k1, k2, k3⟩ := ih1 (fun x hx => hrefs x (by simp [hx])) fuel (i :: path) 0 st2 (p :: anc)
      (List.nodup_cons.2 ⟨fun hm => (hanc p hm).2 (by simp), hnd⟩) (by
        intro q hq
        rcases List.mem_cons.1 hq with rfl | hq
        · exact ⟨by rw [hp]; rfl, forest_acyclic hp f1⟩
        · exact ⟨(hanc q hq).1, fun hm => (hanc q hq).2 (by
            simp only [List.map_cons, List.map_append, List.mem_cons, List.mem_append]; exact .inr (.inl hm))⟩)
      (by rw [List.length_cons]; omega) p3 (by omega)
    obtain ⟨items, st4, i1, i2, i3⟩ := ih2 (fun x hx => hrefs x (by simp [hx])) (fuel + 1) path (i + 1) st3 anc hnd
      (fun q hq => ⟨(hanc q hq).1, fun hm => (hanc q hq).2 (by
        simp only [List.map_cons, List.map_append, List.mem_cons, List.mem_append]; exact .inr (.inr hm))⟩) hfuel k3 (by omega)
    have hinst : encodeInstance P (fuel + 1) (i :: path) p st = .ok (itemTag P inst.className r props kids, st3) := by
      rw [encodeInstance]
      simp only [g1, hr0, p1, k1]
    refine ⟨itemTag P inst.className r props kids :: items, st4, ?_, by omega, i3⟩
    rw [encodeAll]
    simp only [hinst, i1]

/-- Encoding returns if the random source does not repeat itself, every reference of the tree leads to an instance
that exists, and the structure of instances is finite. -/
theorem encode_total {P : Params} (L : Layout) {h : Heap ρ} {root : Root ρ} {l : Map ρ (Inst ρ)}
    (hgen : ∀ k, isEmptyReference (P.gen k) = false) (hf : Fresh P.gen (demand l) P.attempts)
    (ht : Forest h root.instances l)
    (hrefs : ∀ x ∈ l, ∀ m q, x.2.properties.get? m = some (.reference (some q)) → (h.get? q).isSome) :
    ∃ b h1, encode P L h root = .ok (b, h1) := by
  obtain ⟨items, st, h1, -, -⟩ := encodeAll_total hgen hf ht hrefs (h.length + 1) [] 0 ⟨⟨h, [], 0⟩, []⟩ []
    (by simp) (by simp) (by simp) (SameBut.refl h) (by simp)
  unfold encode codecEncode
  simp only [h1]
  exact ⟨_, _, rfl⟩

/-! ## If encoding returns, the structure is finite -/

theorem getRef_back {gen : Nat → Bytes} (hgen : ∀ k, isEmptyReference (gen k) = false) {fuel : Nat} {st st' : RefState ρ} {p : ρ}
    {r : Bytes} (h : getRef gen fuel st (some p) = .ok (r, st')) : SameBut st'.heap st.heap := by
  have sp := getRef_spec hgen h
  obtain ⟨a, ha, ha'⟩ := sp.self
  intro q b hb
  by_cases hq : q = p
  · subst hq
    rw [ha'] at hb; cases hb
    exact ⟨a.reference, ha⟩
  · exact ⟨b.reference, by rw [← sp.others q hq]; exact hb⟩

theorem encodeProps_back {P : Params} (hgen : ∀ k, isEmptyReference (P.gen k) = false) (props : Map Bytes (Value ρ)) :
    ∀ (ns : List Bytes) {st st' : EncState ρ} {ts : List Tag}, encodeProps P props ns st = .ok (ts, st') →
    SameBut st'.refs.heap st.refs.heap
  | [], st, st', ts, h => by
    simp only [encodeProps, Res.ok.injEq, Prod.mk.injEq] at h
    obtain ⟨-, rfl⟩ := h
    exact .refl _
  | n :: ns, st, st', ts, h => by
    rw [encodeProps] at h
    split at h
    · exact encodeProps_back hgen props ns h
    · rename_i v _
      split at h
      · cases h
      · cases h
      · rename_i t st1 h1
        split at h
        · cases h
        · cases h
        · rename_i ts' st2 h2
          simp only [Res.ok.injEq, Prod.mk.injEq] at h
          obtain ⟨-, rfl⟩ := h
          refine (encodeProps_back hgen props ns h2).trans ?_
          unfold encodeProperty at h1
          split at h1
          · split at h1
            · cases h1
            · cases h1
            · rename_i hr
              simp only [Res.ok.injEq, Prod.mk.injEq] at h1
              obtain ⟨-, rfl⟩ := h1
              exact getRef_back hgen hr
          · simp only [Res.ok.injEq, Prod.mk.injEq] at h1
            obtain ⟨-, rfl⟩ := h1
            exact .refl _
          · simp only [Res.ok.injEq, Prod.mk.injEq] at h1
            obtain ⟨-, rfl⟩ := h1
            exact .refl _

theorem encodeAll_finite {P : Params} (hgen : ∀ k, isEmptyReference (P.gen k) = false) {h : Heap ρ} :
    ∀ (fuel : Nat) (ps : List ρ) (path : List Nat) (i : Nat) (st st' : EncState ρ) (items : List Tag), SameBut st.refs.heap h →
    encodeAll (encodeInstance P fuel) path i ps st = .ok (items, st') →
    SameBut st'.refs.heap h ∧ ∃ l : Map ρ (Inst ρ), Forest h ps l := by
  intro fuel
  induction fuel with
  | zero =>
    intro ps path i st st' items hs he
    cases ps with
    | nil =>
      simp only [encodeAll, Res.ok.injEq, Prod.mk.injEq] at he
      obtain ⟨-, rfl⟩ := he
      exact ⟨hs, [], .nil⟩
    | cons p ps => simp only [encodeAll, encodeInstance] at he; cases he
  | succ fuel ihf =>
    intro ps
    induction ps with
    | nil =>
      intro path i st st' items hs he
      simp only [encodeAll, Res.ok.injEq, Prod.mk.injEq] at he
      obtain ⟨-, rfl⟩ := he
      exact ⟨hs, [], .nil⟩
    | cons p ps ih =>
      intro path i st st' items hs he
      rw [encodeAll] at he
      split at he
      · cases he
      · cases he
      · rename_i t st1 h1
        split at he
        · cases he
        · cases he
        · rename_i ts st2 h2
          simp only [Res.ok.injEq, Prod.mk.injEq] at he
          obtain ⟨-, rfl⟩ := he
          rw [encodeInstance] at h1
          split at h1
          · cases h1
          · cases h1
          · rename_i ref refs hr
            have hs1 : SameBut refs.heap h := (getRef_back hgen hr).trans hs
            split at h1
            · cases h1
            · rename_i inst hp
              split at h1
              · cases h1
              · cases h1
              · rename_i props st3 h3
                have hs2 : SameBut st3.refs.heap h := (encodeProps_back hgen _ _ h3).trans hs1
                split at h1
                · cases h1
                · cases h1
                · rename_i kids st4 h4
                  simp only [Res.ok.injEq, Prod.mk.injEq] at h1
                  obtain ⟨-, rfl⟩ := h1
                  obtain ⟨k1, lb, k2⟩ := ihf _ _ _ _ _ _ hs2 h4
                  obtain ⟨k3, lr, k4⟩ := ih _ _ _ _ _ k1 h2
                  obtain ⟨r, hr'⟩ := hs1 p inst hp
                  exact ⟨k3, _, .cons hr' k2 k4⟩

/-- If encoding returns, the structure of instances is finite. -/
theorem encode_finite {P : Params} {L : Layout} {h : Heap ρ} {root : Root ρ} (hgen : ∀ k, isEmptyReference (P.gen k) = false)
    {b : Bytes} {h1 : Heap ρ} (he : encode P L h root = .ok (b, h1)) : ∃ l, Forest h root.instances l := by
  unfold encode codecEncode at he
  cases hea : encodeAll (encodeInstance P (h.length + 1)) [] 0 root.instances ⟨⟨h, [], 0⟩, []⟩ with
  | panic => simp only [hea] at he; cases he
  | err e => simp only [hea] at he; cases he
  | ok res => exact (encodeAll_finite hgen _ _ _ _ _ _ _ (SameBut.refl h) hea).2

end Rbxlx

import Verif.Json.Panics
import Verif.Rbxlx.TreeTotal
import Verif.Spec.Mentions
/-!
# Converting a structure of instances to JSON ends exactly if the structure is finite
-/
namespace Json
open Go Rbxfile Spec Rbxlx

variable {gen : Nat → Bytes} {fuel : Nat} {it : Iter}

/-! ## If it returns, the structure is finite -/

theorem ref_back (hgen : ∀ k, isEmptyReference (gen k) = false) {st st' : RefState Nat} {q : Option Nat} {r : Bytes}
    (h : getRef gen fuel st q = .ok (r, st')) : SameBut st'.heap st.heap := by
  cases q with
  | none =>
    simp only [getRef, Res.ok.injEq, Prod.mk.injEq] at h
    rw [h.2]; exact .refl _
  | some p => exact getRef_back hgen h

theorem valueTo_cases (v : Value Nat) (st : RefState Nat) :
    (∃ q, v = .reference q) ∨ (∃ t w, v = .optional t (some w)) ∨ ∃ j, valueTo gen fuel v st = .ok (j, st) := by
  cases v with
  | reference q => exact .inl ⟨q, rfl⟩
  | optional t o =>
    cases o with
    | none => exact .inr (.inr ⟨_, rfl⟩)
    | some w => exact .inr (.inl ⟨t, w, rfl⟩)
  | _ => exact .inr (.inr ⟨_, rfl⟩)

theorem valueTo_back (hgen : ∀ k, isEmptyReference (gen k) = false) : ∀ (v : Value Nat) {st st' : RefState Nat} {j : JVal},
    valueTo gen fuel v st = .ok (j, st') → SameBut st'.heap st.heap := by
  intro v
  generalize hn : sizeOf v = n
  induction n using Nat.strongRecOn generalizing v with
  | _ n ih =>
    intro st st' j h
    rcases valueTo_cases (gen := gen) (fuel := fuel) v st with ⟨q, rfl⟩ | ⟨t, w, rfl⟩ | ⟨j1, hj⟩
    · simp only [valueTo] at h
      split at h
      · rename_i r st1 h1
        simp only [Res.ok.injEq, Prod.mk.injEq] at h
        obtain ⟨-, rfl⟩ := h
        exact ref_back hgen h1
      · cases h
      · cases h
    · simp only [valueTo] at h
      split at h
      · rename_i j1 st1 h1
        simp only [Res.ok.injEq, Prod.mk.injEq] at h
        obtain ⟨-, rfl⟩ := h
        exact ih (sizeOf w) (by rw [← hn]; simp; omega) w rfl h1
      · cases h
      · cases h
    · rw [hj] at h; cases h; exact .refl _

theorem propsTo_back (hgen : ∀ k, isEmptyReference (gen k) = false) : ∀ (ps : List (Bytes × Value Nat)) {st st' : RefState Nat}
    {js : List (Bytes × JVal)}, propsTo gen fuel ps st = .ok (js, st') → SameBut st'.heap st.heap
  | [], st, st', js, h => by cases h; exact .refl _
  | (n, v) :: ps, st, st', js, h => by
    rw [propsTo] at h
    obtain ⟨⟨j, st1⟩, h1, h⟩ := Res.bind_eq_ok.1 h
    obtain ⟨⟨js1, st2⟩, h2, h⟩ := Res.bind_eq_ok.1 h
    cases h
    exact (propsTo_back hgen ps h2).trans (valueTo_back hgen v h1)

theorem listTo_finite (hgen : ∀ k, isEmptyReference (gen k) = false) {h : Heap Nat} :
    ∀ (depth : Nat) (ps : List Nat) (st st' : RefState Nat) (js : List JVal), SameBut st.heap h →
    listTo (instTo gen fuel it depth) ps st = .ok (js, st') →
    SameBut st'.heap h ∧ ∃ l : Map Nat (Inst Nat), Forest h ps l := by
  intro depth
  induction depth with
  | zero =>
    intro ps st st' js hs e
    cases ps with
    | nil => cases e; exact ⟨hs, [], .nil⟩
    | cons p ps => simp only [listTo, instTo] at e; cases e
  | succ d ihd =>
    intro ps
    induction ps with
    | nil => intro st st' js hs e; cases e; exact ⟨hs, [], .nil⟩
    | cons p ps ih =>
      intro st st' js hs e
      rw [listTo] at e
      obtain ⟨⟨j, st1⟩, e1, e⟩ := Res.bind_eq_ok.1 e
      obtain ⟨⟨js1, st2⟩, e2, e⟩ := Res.bind_eq_ok.1 e
      cases e
      rw [instTo] at e1
      split at e1
      · cases e1
      · rename_i inst hp
        obtain ⟨⟨r, st3⟩, e3, e1⟩ := Res.bind_eq_ok.1 e1
        obtain ⟨⟨props, st4⟩, e4, e1⟩ := Res.bind_eq_ok.1 e1
        obtain ⟨⟨kids, st5⟩, e5, e1⟩ := Res.bind_eq_ok.1 e1
        cases e1
        obtain ⟨r0, hr0⟩ := hs p inst hp
        obtain ⟨k1, lb, k2⟩ := ihd _ _ _ _ (((propsTo_back hgen _ e4).trans (ref_back hgen e3)).trans hs) e5
        obtain ⟨k3, lr, k4⟩ := ih _ _ _ k1 e2
        exact ⟨k3, _, .cons hr0 k2 k4⟩

theorem rootTo_finite (hgen : ∀ k, isEmptyReference (gen k) = false) {h : Heap Nat} {pos : Nat} {root : Root Nat} {j : JVal}
    {h1 : Heap Nat} (e : rootTo gen fuel it h pos root = .ok (j, h1)) : ∃ l, Forest h root.instances l := by
  unfold rootTo at e
  obtain ⟨⟨js, st⟩, e1, -⟩ := Res.bind_eq_ok.1 e
  exact (listTo_finite hgen _ _ _ _ _ (.refl h) e1).2

/-! ## If the structure is finite, it returns -/

theorem valueTo_total {n : Nat} (hgen : ∀ k, isEmptyReference (gen k) = false) (hf : Fresh gen n fuel) : ∀ (v : Value Nat)
    (st : RefState Nat), st.refs.length ≤ n → (∀ q, Mentions v q → (st.heap.get? q).isSome) →
    ∃ j st', valueTo gen fuel v st = .ok (j, st') ∧ st'.refs.length ≤ st.refs.length + 1 := by
  intro v
  generalize hn : sizeOf v = m
  induction m using Nat.strongRecOn generalizing v with
  | _ m ih =>
    intro st hl hq
    rcases valueTo_cases (gen := gen) (fuel := fuel) v st with ⟨q, rfl⟩ | ⟨t, w, rfl⟩ | ⟨j1, hj⟩
    · obtain ⟨r, st', e, hl'⟩ := getRef_total hf (st := st) hl (q := q) fun p hp => hq p (by rw [hp]; exact .reference p)
      exact ⟨.str r, st', by simp only [valueTo, e], hl'⟩
    · obtain ⟨j, st', e, hl'⟩ := ih (sizeOf w) (by rw [← hn]; simp; omega) w rfl st hl fun q h => hq q (.optional t w q h)
      exact ⟨.obj [(str "type", .type t), (str "value", j)], st', by simp only [valueTo, e], hl'⟩
    · exact ⟨j1, st, hj, by omega⟩

theorem propsTo_total {n : Nat} (hgen : ∀ k, isEmptyReference (gen k) = false) (hf : Fresh gen n fuel) :
    ∀ (ps : List (Bytes × Value Nat)) (st : RefState Nat), st.refs.length + ps.length ≤ n →
    (∀ x ∈ ps, ∀ q, Mentions x.2 q → (st.heap.get? q).isSome) →
    ∃ js st', propsTo gen fuel ps st = .ok (js, st') ∧ st'.refs.length ≤ st.refs.length + ps.length
  | [], st, _, _ => ⟨[], st, rfl, by simp⟩
  | (m, v) :: ps, st, hl, hq => by
    simp only [List.length_cons] at hl ⊢
    obtain ⟨j, st1, e1, hl1⟩ := valueTo_total hgen hf v st (by omega) (hq (m, v) (by simp))
    have hx := valueTo_ext hgen v e1
    obtain ⟨js, st2, e2, hl2⟩ := propsTo_total hgen hf ps st1 (by omega) fun x hx' q hm =>
      SameBut.isSome hx.heap (hq x (by simp [hx']) q hm)
    have e : propsTo gen fuel ((m, v) :: ps) st = .ok ((m, propObj v j) :: js, st2) := by
      rw [propsTo]
      simp only [e1, Res.ok_bind, e2, Res.pure_eq]
      rfl
    exact ⟨_, st2, e, by omega⟩

theorem listTo_total {n : Nat} (hgen : ∀ k, isEmptyReference (gen k) = false) (hf : Fresh gen n fuel) {h : Heap Nat}
    {ps : List Nat} {l : Map Nat (Inst Nat)} (f : Forest h ps l)
    (hrefs : ∀ x ∈ l, ∀ y ∈ x.2.properties, ∀ q, Mentions y.2 q → (h.get? q).isSome) :
    ∀ (depth : Nat) (st : RefState Nat) (anc : List Nat), anc.Nodup → (∀ q ∈ anc, (h.get? q).isSome ∧ q ∉ l.map Prod.fst) →
    h.length + 1 ≤ depth + anc.length → SameBut h st.heap → st.refs.length + demand l ≤ n →
    ∃ js st', listTo (instTo gen fuel it depth) ps st = .ok (js, st') ∧ st'.refs.length ≤ st.refs.length + demand l := by
  induction f with
  | nil => intro depth st anc _ _ _ _ _; exact ⟨[], st, rfl, by simp⟩
  | @cons p ps inst below rest hp f1 f2 ih1 ih2 =>
    intro depth st anc hnd hanc hd hs hn
    have hlong := path_length hnd fun q hq => (hanc q hq).1
    have hw : demand ((p, inst) :: (below ++ rest)) = 1 + inst.properties.length + (demand below + demand rest) := by
      simp [demand, List.sum_append]
    rw [hw] at hn ⊢
    cases depth with
    | zero => omega
    | succ depth =>
    obtain ⟨r0, hr0⟩ := hs p inst hp
    obtain ⟨r, st1, e1, hl1⟩ := getRef_total hf (st := st) (by omega) (q := some p) fun p' e' => by cases e'; rw [hr0]; rfl
    have x1 := (getRef_ext hgen e1).1
    have hlen : (it.run [p] inst.properties).length = inst.properties.length := (it.perm [p] inst.properties).length_eq
    obtain ⟨js, st2, e2, hl2⟩ := propsTo_total hgen hf (it.run [p] inst.properties) st1 (by rw [hlen]; omega) (fun x hx q hm =>
      SameBut.isSome (hs.trans x1.heap) (hrefs (p, inst) (by simp) x ((it.perm [p] inst.properties).mem_iff.1 hx) q hm))
    have x2 := (propsTo_each hgen _ e2).1
    rw [hlen] at hl2
    obtain ⟨kids, st3, e3, hl3⟩ := ih1 (fun x hx => hrefs x (by simp [hx])) depth st2 (p :: anc)
      (List.nodup_cons.2 ⟨fun hm => (hanc p hm).2 (by simp), hnd⟩) (by
        intro q hq
        rcases List.mem_cons.1 hq with rfl | hq
        · exact ⟨by rw [hp]; rfl, forest_acyclic hp f1⟩
        · exact ⟨(hanc q hq).1, fun hm => (hanc q hq).2 (by
            simp only [List.map_cons, List.map_append, List.mem_cons, List.mem_append]; exact .inr (.inl hm))⟩)
      (by rw [List.length_cons]; omega) ((hs.trans x1.heap).trans x2.heap) (by omega)
    have x3 := (listTo_ext (instTo_ext hgen depth) e3).1
    obtain ⟨js4, st4, e4, hl4⟩ := ih2 (fun x hx => hrefs x (by simp [hx])) (depth + 1) st3 anc hnd
      (fun q hq => ⟨(hanc q hq).1, fun hm => (hanc q hq).2 (by
        simp only [List.map_cons, List.map_append, List.mem_cons, List.mem_append]; exact .inr (.inr hm))⟩) hd
      (((hs.trans x1.heap).trans x2.heap).trans x3.heap) (by omega)
    refine ⟨instObj inst r js kids :: js4, st4, ?_, by omega⟩
    rw [listTo, instTo]
    simp only [hr0, e1, Res.ok_bind]
    rw [show ({ inst with reference := r0 } : Inst Nat).properties = inst.properties from rfl, e2]
    simp only [Res.ok_bind, e3, Res.pure_eq]
    rw [e4]
    rfl

theorem rootTo_total (hgen : ∀ k, isEmptyReference (gen k) = false) {h : Heap Nat} {pos : Nat} {root : Root Nat}
    {l : Map Nat (Inst Nat)} (hf : Fresh gen (demand l) fuel) (f : Forest h root.instances l)
    (hrefs : ∀ x ∈ l, ∀ y ∈ x.2.properties, ∀ q, Mentions y.2 q → (h.get? q).isSome) :
    ∃ j h1, rootTo gen fuel it h pos root = .ok (j, h1) := by
  obtain ⟨js, st, e, -⟩ := listTo_total (it := it) hgen hf f hrefs (h.length + 1) ⟨h, [], pos⟩ [] (by simp) (by simp) (by simp)
    (.refl h) (by simp)
  unfold rootTo
  rw [e]
  exact ⟨_, _, rfl⟩

end Json

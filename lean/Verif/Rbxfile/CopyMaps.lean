import Verif.Rbxfile.CopyMain
import Verif.Spec.SameXml
import Verif.Rbxl.EncTree
/-!
# Copying: the maps, and the references of all instances that are mentioned
-/
namespace Rbxfile
open Go Spec

/-- The maps of properties are maps. -/
def OkMaps (h : Heap Nat) : Prop := ∀ p a, h.get? p = some a → a.properties.Ok

theorem OkMaps.set {h : Heap Nat} (hh : OkMaps h) (p : Nat) {a : Inst Nat} (ha : a.properties.Ok) : OkMaps (h.set p a) := by
  intro q b hb
  rw [Map.get?_set] at hb
  split at hb
  · cases hb; exact ha
  · exact hh q b hb

theorem OkMaps.update {s : CState} (hs : OkMaps s.st.heap) (c : Nat) {f : Inst Nat → Inst Nat}
    (hf : ∀ b, b.properties.Ok → (f b).properties.Ok) : OkMaps (s.update c f).st.heap := by
  unfold CState.update
  split
  · exact hs
  · rename_i b hb
    exact hs.set c (hf b (hs c b hb))

theorem getRef_maps {gen : Nat → Bytes} {fuel : Nat} {st st' : RefState Nat} {q : Option Nat} {r : Bytes}
    (hs : OkMaps st.heap) (h : getRef gen fuel st q = .ok (r, st')) : OkMaps st'.heap := by
  cases q with
  | none =>
    simp only [getRef, Res.ok.injEq, Prod.mk.injEq] at h
    obtain ⟨-, rfl⟩ := h
    exact hs
  | some p =>
    rw [getRef] at h
    split at h
    · cases h
    · rename_i inst hi
      simp only at h
      split at h
      · split at h
        · cases h
        · simp only [Res.ok.injEq, Prod.mk.injEq] at h
          obtain ⟨-, rfl⟩ := h
          exact hs.set p (hs p inst hi)
      · simp only [Res.ok.injEq, Prod.mk.injEq] at h
        obtain ⟨-, rfl⟩ := h
        exact hs

section
variable {gen : Nat → Bytes} {fuel : Nat} {it : Iter}

theorem copyProps_maps {c : Nat} : ∀ {ps : List (Bytes × Value Nat)} {s s' : CState}, OkMaps s.st.heap →
    copyProps gen fuel c ps s = .ok s' → OkMaps s'.st.heap
  | [], s, s', hs, h => by
    simp only [copyProps, Res.ok.injEq] at h
    subst h; exact hs
  | (name, v) :: ps, s, s', hs, h => by
    by_cases hv : ∃ q, v = .reference q
    · obtain ⟨q, rfl⟩ := hv
      rw [copyProps] at h
      obtain ⟨⟨r, st⟩, h1, h2⟩ := Res.bind_eq_ok.1 h
      exact copyProps_maps (s := { s with st := st, props := s.props ++ [⟨some c, name, r⟩] }) (getRef_maps hs h1) h2
    · have e : copyProps gen fuel c ((name, v) :: ps) s =
          copyProps gen fuel c ps (s.update c fun b => { b with properties := b.properties.set name v.copy }) := by
        cases v <;> first | rfl | exact absurd ⟨_, rfl⟩ hv
      rw [e] at h
      exact copyProps_maps (hs.update c fun b hb => Map.ok_set hb _ _) h

theorem copyList_maps {f : Nat → CState → Res (Nat × CState)}
    (hf : ∀ p s c s', OkMaps s.st.heap → f p s = .ok (c, s') → OkMaps s'.st.heap) :
    ∀ {ps : List Nat} {s s' : CState} {cs : List Nat}, OkMaps s.st.heap → copyList f ps s = .ok (cs, s') → OkMaps s'.st.heap
  | [], s, s', cs, hs, h => by
    simp only [copyList, Res.ok.injEq, Prod.mk.injEq] at h
    obtain ⟨-, rfl⟩ := h
    exact hs
  | p :: ps, s, s', cs, hs, h => by
    rw [copyList] at h
    obtain ⟨⟨c, s1⟩, h1, h2⟩ := Res.bind_eq_ok.1 h
    obtain ⟨⟨cs', s2⟩, h3, h4⟩ := Res.bind_eq_ok.1 h2
    simp only [Res.pure_eq, Res.ok.injEq, Prod.mk.injEq] at h4
    obtain ⟨-, rfl⟩ := h4
    exact copyList_maps hf (hf _ _ _ _ hs h1) h3

theorem copyInst_maps : ∀ {depth p : Nat} {s s' : CState} {c : Nat}, OkMaps s.st.heap →
    copyInst gen fuel it depth p s = .ok (c, s') → OkMaps s'.st.heap
  | 0, _, _, _, _, _, h => by cases h
  | depth + 1, p, s, s', c, hs, h => by
    rw [copyInst] at h
    split at h
    · cases h
    · rename_i inst hi
      obtain ⟨⟨r, st⟩, h1, h2⟩ := Res.bind_eq_ok.1 h
      obtain ⟨s1, h3, h4⟩ := Res.bind_eq_ok.1 h2
      obtain ⟨⟨cs, s2⟩, h5, h6⟩ := Res.bind_eq_ok.1 h4
      simp only [Res.pure_eq, Res.ok.injEq, Prod.mk.injEq] at h6
      obtain ⟨-, rfl⟩ := h6
      refine OkMaps.update (copyList_maps (fun _ _ _ _ => copyInst_maps) (copyProps_maps ?_ h3) h5) _ fun b hb => hb
      exact (getRef_maps hs h1).set _ Map.ok_nil
end

theorem resolve_maps {refs : References Nat} {pr : PropRef Nat} {h : Heap Nat} (hh : OkMaps h) :
    OkMaps (refs.resolve pr h).2 := by
  unfold References.resolve
  split
  · exact hh
  · rename_i p hp
    split
    · exact hh
    · rename_i inst hi
      exact hh.set _ (Map.ok_set (hh p inst hi) _ _)

theorem resolveAll_maps {crefs refs : References Nat} : ∀ {prs : List (PropRef Nat)} {h : Heap Nat}, OkMaps h →
    OkMaps (resolveAll crefs refs prs h)
  | [], h, hh => hh
  | pr :: prs, h, hh => by
    rw [resolveAll]
    refine resolveAll_maps ?_
    split
    · exact resolve_maps hh
    · exact resolve_maps (resolve_maps hh)

/-- After copying, the instances that the tree mentions have references, which are different. -/
theorem copy_known {gen : Nat → Bytes} {fuel : Nat} {it : Iter} {h : Heap Nat} (hgen : ∀ k, isEmptyReference (gen k) = false)
    (ok : HeapOk h) {ps : List Nat} {l : Map Nat (Inst Nat)} (ht : Trees h ps l) {next pos depth : Nat}
    (hb : ∀ x, next ≤ x → h.get? x = none) {cs : List Nat} {s : CState}
    (e : copyList (copyInst gen fuel it depth) ps (copyStart h next pos) = .ok (cs, s)) :
    ∃ refs : References Nat, ∀ p, Mentioned l p → ∃ a,
      (resolveAll s.crefs s.st.refs s.props s.st.heap).get? p = some a ∧ isEmptyReference a.reference = false ∧
      refs.at a.reference = some p := by
  obtain ⟨hf, hok⟩ := ht
  have cp := copyList_copied (it := it) hgen ok hf (good_start (pos := pos) hb) hb e
  obtain ⟨keys, spec⟩ := resolveAll_spec (crefs := s.crefs) (refs := s.st.refs) (prs := s.props)
    (h := s.st.heap)
  obtain ⟨new, n1, n2, n3⟩ := cp.props
  refine ⟨s.st.refs, ?_⟩
  have known : ∀ r p, s.st.refs.at r = some p → ∃ a,
      (resolveAll s.crefs s.st.refs s.props s.st.heap).get? p = some a ∧ isEmptyReference a.reference = false ∧
      s.st.refs.at a.reference = some p := by
    intro r p hr
    obtain ⟨k1, -, a, k3, k4⟩ := cp.good.refInv r p hr
    obtain ⟨a', g1, g2, -⟩ := spec p a k3
    have e4 : a'.reference = a.reference := (congrArg (fun (x : Inst Nat) => x.reference) g2).trans rfl
    exact ⟨a', g1, by rw [e4, k4]; exact k1, by rw [e4, k4]; exact hr⟩
  have clone : ∀ x ∈ l, ∃ c, (x.1, c) ∈ renFrom next l := by
    intro x hx
    have : x.1 ∈ (renFrom next l).map Prod.fst := by rw [renFrom_keys]; exact List.mem_map.2 ⟨x, hx, rfl⟩
    obtain ⟨⟨p, c⟩, h1, rfl⟩ := List.mem_map.1 this
    exact ⟨c, h1⟩
  intro p hp
  rcases hp with hp | ⟨x, hx, n, hn⟩
  · obtain ⟨x, hx, rfl⟩ := List.mem_map.1 hp
    obtain ⟨c, hc⟩ := clone x hx
    obtain ⟨a, b, -, -, -, -, -, -, h7⟩ := cp.clones x.1 c hc
    exact known _ _ h7
  · obtain ⟨c, hc⟩ := clone x hx
    obtain ⟨pr, hpr, hi, hname⟩ := n3 x.1 c x.2 n (some p) hc (Rbxl.Forest.get? hf x hx) hn
    obtain ⟨p', c', a', q, m1, m2, m3, m4, m5⟩ := n2 pr hpr
    rw [hi] at m3; cases m3
    have hpp : p' = x.1 := by
      have h1 := List.mem_zipIdx m1
      have h2 := List.mem_zipIdx hc
      exact h1.2.2.trans h2.2.2.symm
    subst hpp
    rw [Rbxl.Forest.get? hf x hx] at m2; cases m2
    rw [hname, hn] at m4; cases m4
    exact known _ _ (m5.2 p rfl)

end Rbxfile

import Verif.Rbxlx.TreeEnc
/-!
# The XML encoding does not depend on the order of maps
-/
namespace Rbxlx
open Go Rbxfile

variable {ρ : Type} [DecidableEq ρ]

/-- The maps of a state have every key once. -/
structure MapsOk (st : EncState ρ) : Prop where
  properties : ∀ p a, st.refs.heap.get? p = some a → a.properties.Ok
  shared : st.shared.Ok

theorem getRef_ok {gen : Nat → Bytes} {fuel : Nat} {st st' : RefState ρ} {p : ρ} {r : Bytes}
    (hst : ∀ p a, st.heap.get? p = some a → a.properties.Ok) (h : getRef gen fuel st (some p) = .ok (r, st')) :
    ∀ p a, st'.heap.get? p = some a → a.properties.Ok := by
  simp only [getRef] at h
  cases hp : st.heap.get? p with
  | none => simp [hp] at h
  | some inst =>
    simp only [hp] at h
    split at h
    · cases hg : genLoop gen st.refs fuel st.pos with
      | none => simp [hg] at h
      | some x =>
        simp only [hg, Res.ok.injEq, Prod.mk.injEq] at h
        obtain ⟨rfl, rfl⟩ := h
        intro q a ha
        simp only [Map.get?_set] at ha
        split at ha
        · cases ha; exact hst p inst hp
        · exact hst q a ha
    · simp only [Res.ok.injEq, Prod.mk.injEq] at h
      obtain ⟨rfl, rfl⟩ := h
      exact hst

theorem encodeProperty_ok {P : Params} {st st' : EncState ρ} {v : Value ρ} {t : Option Tag} (hst : MapsOk st)
    (h : encodeProperty P st v = .ok (t, st')) : MapsOk st' := by
  unfold encodeProperty at h
  split at h
  · split at h
    · cases h
    · cases h
    · rename_i hg
      simp only [Res.ok.injEq, Prod.mk.injEq] at h
      obtain ⟨-, rfl⟩ := h
      exact ⟨getRef_ok hst.properties hg, hst.shared⟩
  · simp only [Res.ok.injEq, Prod.mk.injEq] at h
    obtain ⟨-, rfl⟩ := h
    refine ⟨hst.properties, ?_⟩
    show Map.Ok (if _ then _ else _)
    split
    · exact hst.shared
    · exact Map.ok_set hst.shared _ _
  · simp only [Res.ok.injEq, Prod.mk.injEq] at h
    obtain ⟨-, rfl⟩ := h
    exact hst

theorem encodeProps_ok {P : Params} {props : Map Bytes (Value ρ)} : ∀ {ns : List Bytes} {st st' : EncState ρ}
    {ts : List Tag}, MapsOk st → encodeProps P props ns st = .ok (ts, st') → MapsOk st'
  | [], st, st', ts, hst, h => by
    simp only [encodeProps, Res.ok.injEq, Prod.mk.injEq] at h
    obtain ⟨-, rfl⟩ := h
    exact hst
  | n :: ns, st, st', ts, hst, h => by
    rw [encodeProps] at h
    split at h
    · exact encodeProps_ok hst h
    · split at h
      · cases h
      · cases h
      · rename_i h1
        split at h
        · cases h
        · cases h
        · rename_i h2
          simp only [Res.ok.injEq, Prod.mk.injEq] at h
          obtain ⟨-, rfl⟩ := h
          exact encodeProps_ok (encodeProperty_ok hst h1) h2

theorem encodeAll_ok {f : List Nat → ρ → EncState ρ → Res (Tag × EncState ρ)}
    (hf : ∀ path p st t st', MapsOk st → f path p st = .ok (t, st') → MapsOk st') {path : List Nat} :
    ∀ {ps : List ρ} {i : Nat} {st st' : EncState ρ} {ts : List Tag}, MapsOk st →
      encodeAll f path i ps st = .ok (ts, st') → MapsOk st'
  | [], i, st, st', ts, hst, h => by
    simp only [encodeAll, Res.ok.injEq, Prod.mk.injEq] at h
    obtain ⟨-, rfl⟩ := h
    exact hst
  | p :: ps, i, st, st', ts, hst, h => by
    rw [encodeAll] at h
    split at h
    · cases h
    · cases h
    · rename_i h1
      split at h
      · cases h
      · cases h
      · rename_i h2
        simp only [Res.ok.injEq, Prod.mk.injEq] at h
        obtain ⟨-, rfl⟩ := h
        exact encodeAll_ok hf (hf _ _ _ _ _ hst h1) h2

theorem encodeInstance_ok {P : Params} : ∀ {fuel : Nat} {path : List Nat} {p : ρ} {st st' : EncState ρ} {t : Tag},
    MapsOk st → encodeInstance P fuel path p st = .ok (t, st') → MapsOk st'
  | 0, _, _, _, _, _, _, h => by cases h
  | fuel + 1, path, p, st, st', t, hst, h => by
    rw [encodeInstance] at h
    split at h
    · cases h
    · cases h
    · rename_i h1
      split at h
      · cases h
      · split at h
        · cases h
        · cases h
        · rename_i h2
          split at h
          · cases h
          · cases h
          · rename_i h3
            simp only [Res.ok.injEq, Prod.mk.injEq] at h
            obtain ⟨-, rfl⟩ := h
            exact encodeAll_ok (fun _ _ _ _ _ => encodeInstance_ok)
              (encodeProps_ok (MapsOk.mk (getRef_ok hst.properties h1) hst.shared : MapsOk ⟨_, st.shared⟩) h2) h3

/-- The same but for the order of maps and the algorithm for sorting. -/
structure SameParams (P Q : Params) : Prop where
  F : P.F = Q.F
  hash : P.hash = Q.hash
  gen : P.gen = Q.gen
  attempts : P.attempts = Q.attempts
  excludeReferent : P.excludeReferent = Q.excludeReferent
  excludeExternal : P.excludeExternal = Q.excludeExternal
  excludeMetadata : P.excludeMetadata = Q.excludeMetadata

theorem encodeProperty_same {P Q : Params} (h : SameParams P Q) (st : EncState ρ) (v : Value ρ) :
    encodeProperty P st v = encodeProperty Q st v := by
  unfold encodeProperty
  rw [h.F, h.hash, h.gen, h.attempts]

theorem encodeProps_same {P Q : Params} (h : SameParams P Q) (props : Map Bytes (Value ρ)) :
    ∀ (ns : List Bytes) (st : EncState ρ), encodeProps P props ns st = encodeProps Q props ns st
  | [], _ => rfl
  | n :: ns, st => by
    simp only [encodeProps, encodeProperty_same h, encodeProps_same h props ns]

theorem encodeAll_same {f g : List Nat → ρ → EncState ρ → Res (Tag × EncState ρ)}
    (hf : ∀ path p st t st', MapsOk st → f path p st = .ok (t, st') → MapsOk st')
    (hfg : ∀ path p st, MapsOk st → f path p st = g path p st) (path : List Nat) :
    ∀ (ps : List ρ) (i : Nat) (st : EncState ρ), MapsOk st → encodeAll f path i ps st = encodeAll g path i ps st
  | [], _, _, _ => rfl
  | p :: ps, i, st, hst => by
    rw [encodeAll, encodeAll, ← hfg _ _ _ hst]
    rcases h1 : f (i :: path) p st with x | e | _
    · simp only [encodeAll_same hf hfg path ps (i + 1) x.2 (hf _ _ _ _ _ hst h1)]
    · rfl
    · rfl

theorem encodeInstance_same {P Q : Params} (h : SameParams P Q) : ∀ (fuel : Nat) (path : List Nat) (p : ρ)
    (st : EncState ρ), MapsOk st → encodeInstance P fuel path p st = encodeInstance Q fuel path p st
  | 0, _, _, _, _ => rfl
  | fuel + 1, path, p, st, hst => by
    rw [encodeInstance, encodeInstance, ← h.gen, ← h.attempts]
    rcases h1 : getRef P.gen P.attempts st.refs (some p) with x | e | _
    · have hx := getRef_ok hst.properties h1
      simp only
      rcases h2 : x.2.heap.get? p with _ | inst
      · rfl
      · have hi := hx _ _ h2
        simp only
        rw [sortedNames_eq P _ hi, sortedNames_eq Q _ hi, ← encodeProps_same h]
        rcases h3 : encodeProps P inst.properties (names inst.properties) { st with refs := x.2 } with y | e | _
        · simp only
          rw [← encodeAll_same (f := encodeInstance P fuel) (g := encodeInstance Q fuel)
            (fun _ _ _ _ _ => encodeInstance_ok) (encodeInstance_same h fuel) path _ _ _
            (encodeProps_ok (MapsOk.mk hx hst.shared : MapsOk ⟨_, st.shared⟩) h3)]
          simp only [itemTag, h.excludeReferent]
        · rfl
        · rfl
    · rfl
    · rfl

theorem metaTags_same (P Q : Params) {m : Map Bytes Bytes} (hm : m.Ok) : metaTags P m = metaTags Q m := by
  unfold metaTags
  rw [Sorter.unique P.srt Q.srt Prod.fst ((P.it.perm [0] m).trans (Q.it.perm [0] m).symm)
    (((P.it.perm [0] m).map Prod.fst).nodup_iff.2 hm)]

theorem sharedTags_same (P Q : Params) {m : Map Bytes Bytes} (hm : m.Ok) : sharedTags P m = sharedTags Q m := by
  have e : P.srt.run bytesLt (P.it.run [2] m.keys) = Q.srt.run bytesLt (Q.it.run [2] m.keys) :=
    Sorter.unique P.srt Q.srt id ((P.it.perm [2] m.keys).trans (Q.it.perm [2] m.keys).symm)
      (by simpa using (P.it.perm [2] m.keys).nodup_iff.2 hm)
  unfold sharedTags
  rw [e]

theorem encode_same {P Q : Params} (hs : SameParams P Q) (L : Layout) (h : Heap ρ) (root : Root ρ)
    (hm : root.metadata.Ok) (hp : ∀ p a, h.get? p = some a → a.properties.Ok) :
    encode P L h root = encode Q L h root := by
  have h0 : MapsOk (⟨⟨h, [], 0⟩, []⟩ : EncState ρ) := ⟨hp, by simp [Map.Ok]⟩
  unfold encode codecEncode
  rw [← encodeAll_same (f := encodeInstance P (h.length + 1)) (g := encodeInstance Q (h.length + 1))
    (fun _ _ _ _ _ => encodeInstance_ok) (encodeInstance_same hs _) [] _ _ _ h0]
  rcases h1 : encodeAll (encodeInstance P (h.length + 1)) [] 0 root.instances ⟨⟨h, [], 0⟩, []⟩ with x | e | _
  · have hx := encodeAll_ok (fun _ _ _ _ _ => encodeInstance_ok) h0 h1
    simp only [metaTags_same P Q hm, sharedTags_same P Q hx.shared, hs.excludeMetadata, hs.excludeExternal]
  · rfl
  · rfl

end Rbxlx

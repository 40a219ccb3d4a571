import Verif.Rbxlx.DecodeFinal
/-!
# A decoded instance has every property once
-/
namespace Rbxlx
open Go Rbxfile

/-- Every instance has every property once. -/
def OkHeap (h : Heap Nat) : Prop := ∀ p i, h.get? p = some i → i.properties.Ok

theorem OkHeap.set {h : Heap Nat} (hh : OkHeap h) (p : Nat) {i : Inst Nat} (hi : i.properties.Ok) : OkHeap (h.set p i) := by
  intro q j hj
  rw [Map.get?_set] at hj
  split at hj
  · cases hj; exact hi
  · exact hh q j hj

theorem OkHeap.setProperty {h : Heap Nat} (hh : OkHeap h) (r : PropRef Nat) (v : Value Nat) : OkHeap (setProperty h r v) := by
  unfold Rbxlx.setProperty
  split
  · exact hh
  · split
    · exact hh
    · rename_i i hi
      exact hh.set _ (Map.ok_set (hh _ _ hi) _ _)

theorem OkHeap.setAll : ∀ (as : List (Nat × Bytes × Value Nat)) {h : Heap Nat}, OkHeap h → OkHeap (setAll as h)
  | [], _, hh => hh
  | a :: as, h, hh => by
    unfold Rbxlx.setAll
    rw [List.foldl_cons]
    exact OkHeap.setAll as (hh.setProperty _ _)

theorem getProps_okHeap {F : FloatText} {d : Bool} {p : Nat} : ∀ (ts : List Tag) {props props' : Map Bytes (Value Nat)}
    {st st' : DecState}, props.Ok → getProps F d p ts props st = .ok (props', st') → props'.Ok ∧ st'.heap = st.heap
  | [], props, props', st, st', hp, h => by
    simp only [getProps, Res.ok.injEq, Prod.mk.injEq] at h
    obtain ⟨rfl, rfl⟩ := h
    exact ⟨hp, rfl⟩
  | t :: ts, props, props', st, st', hp, h => by
    rw [getProps] at h
    rcases hr : getProperty (ρ := Nat) F d t with r | e | _ <;> simp only [hr] at h
    · have h1 : (applyProp p r props st).1.Ok ∧ (applyProp p r props st).2.heap = st.heap := by
        unfold applyProp
        split
        · exact ⟨hp, rfl⟩
        · exact ⟨Map.ok_set hp _ _, rfl⟩
        · exact ⟨hp, rfl⟩
        · exact ⟨hp, rfl⟩
      obtain ⟨h2, h3⟩ := getProps_okHeap ts h1.1 h
      exact ⟨h2, h3.trans h1.2⟩
    · cases h
    · cases h

mutual
theorem getItems_okHeap (F : FloatText) (d : Bool) : ∀ (ts : List Tag) (parent : Option Nat) (hp : Bool)
    (props : Map Bytes (Value Nat)) (st : DecState) (ids : List Nat) (props' : Map Bytes (Value Nat)) (st' : DecState),
    props.Ok → OkHeap st.heap → getItems F d ts parent hp props st = .ok (ids, props', st') →
    props'.Ok ∧ OkHeap st'.heap
  | [], _, _, _, _, _, _, _, h1, h2, h => by
    simp only [getItems, Res.ok.injEq, Prod.mk.injEq] at h
    obtain ⟨rfl, rfl, rfl⟩ := h
    exact ⟨h1, h2⟩
  | t :: ts, parent, hp, props, st, ids, props', st', h1, h2, h => by
    rw [getItems] at h
    rcases hr : getItem F d t parent hp props st with ⟨a, b, c, e⟩ | e | _ <;> simp only [hr] at h
    · obtain ⟨h3, h4⟩ := getItem_okHeap F d t parent hp props st a b c e h1 h2 hr
      rcases hr' : getItems F d ts parent b c e with ⟨a', c', e'⟩ | e | _ <;> simp only [hr'] at h
      · simp only [Res.ok.injEq, Prod.mk.injEq] at h
        obtain ⟨-, rfl, rfl⟩ := h
        exact getItems_okHeap F d ts parent b c e a' c' e' h3 h4 hr'
      · cases h
      · cases h
    · cases h
    · cases h
theorem getItem_okHeap (F : FloatText) (d : Bool) : ∀ (t : Tag) (parent : Option Nat) (hp : Bool)
    (props : Map Bytes (Value Nat)) (st : DecState) (ids : List Nat) (hp' : Bool) (props' : Map Bytes (Value Nat))
    (st' : DecState), props.Ok → OkHeap st.heap → getItem F d t parent hp props st = .ok (ids, hp', props', st') →
    props'.Ok ∧ OkHeap st'.heap
  | ⟨hd, ts⟩, parent, hp, props, st, ids, hp', props', st', h1, h2, h => by
    rw [getItem.eq_def] at h
    simp only at h
    split at h
    · split at h
      · simp only [Res.ok.injEq, Prod.mk.injEq] at h
        obtain ⟨-, -, rfl, rfl⟩ := h
        exact ⟨h1, h2⟩
      · rename_i cls _
        rcases hr : getItems F d ts (some st.heap.length) false [] (enterItem cls (attrValue hd.attr (str "referent")) st)
          with ⟨a, b, c⟩ | e | _ <;> simp only [hr] at h
        · simp only [Res.ok.injEq, Prod.mk.injEq] at h
          obtain ⟨-, -, rfl, rfl⟩ := h
          obtain ⟨h3, h4⟩ := getItems_okHeap F d ts _ _ _ _ a b c Map.ok_nil (h2.set _ Map.ok_nil) hr
          exact ⟨h1, h4.set _ h3⟩
        · cases h
        · cases h
    · split at h
      · split at h
        · simp only [Res.ok.injEq, Prod.mk.injEq] at h
          obtain ⟨-, -, rfl, rfl⟩ := h
          exact ⟨h1, h2⟩
        · rename_i p
          split at h
          · simp only [Res.ok.injEq, Prod.mk.injEq] at h
            obtain ⟨-, -, rfl, rfl⟩ := h
            exact ⟨h1, h2⟩
          · rcases hr : getProps F d p ts props st with ⟨a, b⟩ | e | _ <;> simp only [hr] at h
            · simp only [Res.ok.injEq, Prod.mk.injEq] at h
              obtain ⟨-, -, rfl, rfl⟩ := h
              obtain ⟨h3, h4⟩ := getProps_okHeap ts h1 hr
              exact ⟨h3, h4 ▸ h2⟩
            · cases h
            · cases h
      · simp only [Res.ok.injEq, Prod.mk.injEq] at h
        obtain ⟨-, -, rfl, rfl⟩ := h
        exact ⟨h1, h2⟩
end

/-- A decoded instance has every property once. -/
theorem decode_okHeap {F : FloatText} {d : Bool} {b : Bytes} {h : Heap Nat} {root : Root Nat}
    (hd : decode F d b = .ok (h, root)) : OkHeap h := by
  unfold decode at hd
  rcases hr : readFrom b with ⟨_ | doc, rest⟩ | e | _ <;> simp only [hr] at hd
  · simp only [codecDecode, Res.ok.injEq, Prod.mk.injEq] at hd
    obtain ⟨rfl, -⟩ := hd
    intro p i hp; cases hp
  · unfold codecDecode at hd
    rcases hg : getItems F d doc.tags none false [] {} with ⟨ids, props, st⟩ | e | _ <;> simp only [hg] at hd
    · simp only [Res.ok.injEq, Prod.mk.injEq] at hd
      obtain ⟨rfl, -⟩ := hd
      rw [resolve_eq, rootTags_eq]
      exact OkHeap.setAll _ (OkHeap.setAll _ (getItems_okHeap F d _ _ _ _ _ _ _ _ Map.ok_nil (by intro p i hp; cases hp) hg).2)
    · cases hd
    · cases hd
  · cases hd
  · cases hd

end Rbxlx

import Batteries.Data.List.Perm
import Verif.Rbxlx.CodecDecode
/-!
# When the XML decoder panics, and what discarding invalid properties does
-/
namespace Rbxlx
open Go Rbxfile

/-- A tag reads without a nil dereference if it is a Font: a tag Weight with a number out of range comes after a
tag Family. -/
def FontOk (t : Tag) : Prop := ∀ pre w post, t.tags = pre ++ w :: post → w.head.startName = str "Weight" →
  (parseInt 16 (getContent w)).2 = .range → ∃ f ∈ pre, f.head.startName = str "Family"

mutual
/-- A predicate holds for a tag and all the tags in it. -/
def AllTags (Q : Tag → Prop) : Tag → Prop
  | ⟨h, ts⟩ => Q ⟨h, ts⟩ ∧ AllTagsIn Q ts
/-- A predicate holds for all the tags of a list and all the tags in them. -/
def AllTagsIn (Q : Tag → Prop) : List Tag → Prop
  | [] => True
  | t :: ts => AllTags Q t ∧ AllTagsIn Q ts
end

theorem allTags_head {Q : Tag → Prop} {t : Tag} (h : AllTags Q t) : Q t := by
  obtain ⟨hd, ts⟩ := t
  rw [AllTags] at h
  exact h.1

theorem allTagsIn_mem {Q : Tag → Prop} : ∀ {ts : List Tag}, AllTagsIn Q ts → ∀ t ∈ ts, AllTags Q t
  | [], _, _, ht => by cases ht
  | t :: ts, h, u, hu => by
    rw [AllTagsIn] at h
    rcases List.mem_cons.1 hu with rfl | hu
    · exact h.1
    · exact allTagsIn_mem h.2 u hu

/-! ## getFrom -/

/-- Every name seen that is a tag is stored. -/
def Stored (c : List (Bytes × Comp)) (d : List Bytes) (vs : CompVals) : Prop :=
  ∀ n ∈ d, Map.get? c n = some .tag → (vs.tag n).isSome

theorem tag_put_ne (vs : CompVals) {n m : Bytes} (h : n ≠ m) (v : Option CompVal) :
    (vs.put m v).tag n = vs.tag n := by
  unfold CompVals.put
  cases v with
  | none => rfl
  | some v => simp only [CompVals.tag, Map.get?_set, if_neg h]

theorem tag_put_eq (vs : CompVals) (n : Bytes) (t : Tag) : (vs.put n (some (.tag t))).tag n = some t := by
  simp [CompVals.put, CompVals.tag, Map.get?_set]

/-- The loop finds all the components or stops at a number out of range. -/
theorem getFromLoop_spec (F : FloatText) (c : List (Bytes × Comp)) : ∀ (ts : List Tag) (d : List Bytes) (vs vs' : CompVals)
    , Stored c d vs → d.Nodup → (∀ n ∈ d, n ∈ c.map Prod.fst) → getFromLoop F c ts d vs = (true, vs') →
    (∀ n, n ∈ c.map Prod.fst → Map.get? c n = some .tag → (vs'.tag n).isSome) ∨
    (∃ pre w post k, ts = pre ++ w :: post ∧ Map.get? c w.head.startName = some k ∧ k ≠ .tag ∧ k ≠ .f32 ∧ k ≠ .style ∧
      (∃ v, readComp F k w = .stop true v) ∧
      ∀ n, Map.get? c n = some .tag → (n ∈ d ∨ ∃ f ∈ pre, f.head.startName = n) → (vs'.tag n).isSome)
  | [], d, vs, vs', hs, hd, hc, h => by
    rw [getFromLoop, Prod.mk.injEq, decide_eq_true_eq] at h
    obtain ⟨hl, rfl⟩ := h
    left
    intro n hn ht
    refine hs n ?_ ht
    have hsub : d.Subperm (c.map Prod.fst) := List.subperm_of_subset hd hc
    have hp : d.Perm (c.map Prod.fst) := hsub.perm_of_length_le (by simp [hl])
    exact hp.mem_iff.2 hn
  | t :: ts, d, vs, vs', hs, hd, hc, h => by
    rw [getFromLoop] at h
    have lift : ∀ (d' : List Bytes) (vs0 : CompVals), Stored c d' vs0 → d'.Nodup → (∀ n ∈ d', n ∈ c.map Prod.fst) →
        (∀ n, n ∈ d → n ∈ d') → (Map.get? c t.head.startName = some .tag → t.head.startName ∈ d') →
        getFromLoop F c ts d' vs0 = (true, vs') →
        (∀ n, n ∈ c.map Prod.fst → Map.get? c n = some .tag → (vs'.tag n).isSome) ∨
        (∃ pre w post k, t :: ts = pre ++ w :: post ∧ Map.get? c w.head.startName = some k ∧ k ≠ .tag ∧ k ≠ .f32 ∧
          k ≠ .style ∧ (∃ v, readComp F k w = .stop true v) ∧
          ∀ n, Map.get? c n = some .tag → (n ∈ d ∨ ∃ f ∈ pre, f.head.startName = n) → (vs'.tag n).isSome) :=
      fun d' vs0 a1 a2 a3 a4 a5 a6 =>
      (getFromLoop_spec F c ts d' vs0 vs' a1 a2 a3 a6).imp id (by
        rintro ⟨pre, w, post, k, e, b1, b2, b3, b4, b5, b6⟩
        refine ⟨t :: pre, w, post, k, by rw [e]; rfl, b1, b2, b3, b4, b5, ?_⟩
        rintro n hn (hnd | ⟨f, hf, hfn⟩)
        · exact b6 n hn (.inl (a4 n hnd))
        · rcases List.mem_cons.1 hf with rfl | hf
          · exact b6 n hn (.inl (hfn ▸ a5 (hfn ▸ hn)))
          · exact b6 n hn (.inr ⟨f, hf, hfn⟩))
    split at h
    · rename_i hk
      exact lift d vs hs hd hc (fun _ hn => hn) (fun e => by rw [hk] at e; cases e) h
    · rename_i k hk
      split at h
      · rename_i hm
        exact lift d vs hs hd hc (fun _ hn => hn) (fun _ => hm) h
      · rename_i hm
        split at h
        · rename_i v hv
          refine lift (t.head.startName :: d) _ ?_ (List.nodup_cons.2 ⟨hm, hd⟩) ?_
            (fun _ hn => List.mem_cons_of_mem _ hn) (fun _ => List.mem_cons_self) h
          · intro n hn ht
            by_cases e : n = t.head.startName
            · subst e
              rw [hk] at ht
              cases ht
              simp only [readComp, CompRes.next.injEq] at hv
              subst hv
              rw [tag_put_eq]; rfl
            · rw [tag_put_ne _ e]
              exact hs n (by simpa [e] using hn) ht
          · intro n hn
            rcases List.mem_cons.1 hn with rfl | hn
            · exact Map.get?_isSome.1 (by rw [hk]; rfl)
            · exact hc n hn
        · rename_i ok v hv
          rw [Prod.mk.injEq] at h
          obtain ⟨rfl, rfl⟩ := h
          right
          have hne : k ≠ .tag ∧ k ≠ .f32 ∧ k ≠ .style := by
            refine ⟨?_, ?_, ?_⟩
            · rintro rfl; cases hv
            · rintro rfl; cases hv
            · rintro rfl
              simp only [readComp] at hv
              split at hv <;> cases hv
          refine ⟨[], t, ts, k, rfl, hk, hne.1, hne.2.1, hne.2.2, ⟨v, hv⟩, ?_⟩
          rintro n hn (hnd | ⟨f, hf, -⟩)
          · have e : n ≠ t.head.startName := by
              rintro rfl
              rw [hk] at hn; cases hn; exact hne.1 rfl
            rw [tag_put_ne _ e]
            exact hs n hnd hn
          · cases hf

/-- Only tags and numbers: all are found. -/
theorem getFrom_tags (F : FloatText) {c : List (Bytes × Comp)} (hc : ∀ n k, Map.get? c n = some k → k = .tag) {t : Tag}
    (h : (getFrom F c t).1 = true) {n : Bytes} (hn : (Map.get? c n).isSome) : ((getFrom F c t).2.tag n).isSome := by
  have e : getFromLoop F c t.tags [] [] = (true, (getFrom F c t).2) := by
    rw [← h]; rfl
  rcases getFromLoop_spec F c t.tags [] [] _ (by simp [Stored]) List.nodup_nil (by simp) e with h1 | ⟨_, w, _, k, _, h1, h2, _⟩
  · obtain ⟨k, hk⟩ := Option.isSome_iff_exists.1 hn
    exact h1 n (Map.get?_isSome.1 hn) (by rw [hk, hc n k hk])
  · exact absurd (hc _ _ h1) h2

section
variable {ρ : Type}

theorem font_family (F : FloatText) {t : Tag} (ht : FontOk t)
    (h : (getFrom F [(str "Family", .tag), (str "Weight", .weight), (str "Style", .style)] t).1 = true) :
    ((getFrom F [(str "Family", .tag), (str "Weight", .weight), (str "Style", .style)] t).2.tag (str "Family")).isSome := by
  have e : getFromLoop F [(str "Family", .tag), (str "Weight", .weight), (str "Style", .style)] t.tags [] [] =
      (true, (getFrom F [(str "Family", .tag), (str "Weight", .weight), (str "Style", .style)] t).2) := by
    rw [← h]; rfl
  rcases getFromLoop_spec F _ t.tags [] [] _ (by simp [Stored]) List.nodup_nil (by simp) e with
    h1 | ⟨pre, w, post, k, e1, h1, h2, h3, h4, ⟨v, h5⟩, h6⟩
  · exact h1 _ (by simp) (by simp [Map.get?])
  · have hw : w.head.startName = str "Weight" ∧ k = .weight := by
      have := Map.mem_of_get? h1
      simp only [List.mem_cons, Prod.mk.injEq, List.not_mem_nil, or_false] at this
      rcases this with ⟨-, rfl⟩ | ⟨h, rfl⟩ | ⟨-, rfl⟩
      · exact absurd rfl h2
      · exact ⟨h, rfl⟩
      · exact absurd rfl h4
    obtain ⟨hw, rfl⟩ := hw
    have hr : (parseInt 16 (getContent w)).2 = .range := by
      simp only [readComp, intComp] at h5
      split at h5
      · cases h5
      · assumption
      · cases h5
    obtain ⟨f, hf, hfn⟩ := ht pre w post e1 hw hr
    exact h6 (str "Family") (by simp [Map.get?]) (.inr ⟨f, hf, hfn⟩)

theorem fontValue_ok (F : FloatText) (d : Bool) {t : Tag} (ht : FontOk t) : ∃ o, fontValue (ρ := ρ) F d t = .ok o := by
  unfold fontValue
  simp only
  split
  · exact ⟨_, rfl⟩
  · rename_i h
    obtain ⟨f, hf⟩ := Option.isSome_iff_exists.1 (font_family F ht (by simpa using h))
    rw [hf]
    simp only
    cases contentValue d f with
    | none => exact ⟨_, rfl⟩
    | some fam =>
      simp only
      split
      · exact ⟨_, rfl⟩
      · rename_i h1 h2
        have := getFrom_tags F (c := [(str "CachedFaceId", .tag)]) (n := str "CachedFaceId")
          (by intro n k hk; have := Map.mem_of_get? hk; simp at this; exact this.2) h1 (by simp [Map.get?])
        rw [h2] at this; cases this
      · split
        · exact ⟨_, rfl⟩
        · exact ⟨_, rfl⟩

theorem physValue_ok (F : FloatText) (d : Bool) (t : Tag) : ∃ o, physValue (ρ := ρ) F d t = .ok o := by
  unfold physValue
  simp only
  split
  · exact ⟨_, rfl⟩
  · rename_i h
    have := getFrom_tags F (c := [(str "CustomPhysics", .tag)]) (n := str "CustomPhysics") (t := t)
      (by intro n k hk; have := Map.mem_of_get? hk; simp at this; exact this.2) (by simpa using h) (by simp [Map.get?])
    obtain ⟨f, hf⟩ := Option.isSome_iff_exists.1 this
    rw [hf]
    simp only
    split
    · exact ⟨_, rfl⟩
    · exact ⟨_, rfl⟩
    · split
      · exact ⟨_, rfl⟩
      · exact ⟨_, rfl⟩

theorem getValue_ok (F : FloatText) (d : Bool) {t : Tag} (ty : Ty) (ht : ty = .font → FontOk t) :
    ∃ o, getValue (ρ := ρ) F d t ty = .ok o := by
  cases ty <;> simp only [getValue]
  case font => exact fontValue_ok F d (ht rfl)
  case physicalProperties => exact physValue_ok F d t
  case color3 => split <;> exact ⟨_, rfl⟩
  case color3uint8 => split <;> exact ⟨_, rfl⟩
  all_goals exact ⟨_, rfl⟩

theorem propValue_ok (F : FloatText) (d : Bool) (n : Bytes) (ty : Ty) (o : Bool) {t : Tag} (ht : ty = .font → FontOk t) :
    ∃ r, propValue (ρ := ρ) F d n ty o t = .ok r := by
  obtain ⟨v, hv⟩ := getValue_ok (ρ := ρ) F d ty ht
  unfold propValue
  rw [hv]
  cases v with
  | none => exact ⟨_, rfl⟩
  | some v =>
    simp only
    split
    · split <;> exact ⟨_, rfl⟩
    · exact ⟨_, rfl⟩
    · exact ⟨_, rfl⟩

theorem getProperty_ok (F : FloatText) (d : Bool) {t : Tag} (ht : FontOk t) :
    ∃ r, getProperty (ρ := ρ) F d t = .ok r := by
  unfold getProperty
  cases attrValue t.head.attr (str "name") with
  | none => exact ⟨_, rfl⟩
  | some n =>
    simp only
    split
    · split
      · exact ⟨_, rfl⟩
      · exact ⟨_, rfl⟩
      · rename_i u hu
        refine propValue_ok F d _ _ _ ?_
        intro e
        unfold getOptional at hu
        split at hu
        · cases hu
        · rw [e] at hu; simp at hu
    · exact propValue_ok F d _ _ _ fun _ => ht

end

theorem getProps_ok (F : FloatText) (d : Bool) (p : Nat) : ∀ (ts : List Tag) (props : Map Bytes (Value Nat)) (st : DecState),
    (∀ t ∈ ts, FontOk t) → ∃ r, getProps F d p ts props st = .ok r
  | [], _, _, _ => ⟨_, rfl⟩
  | t :: ts, props, st, h => by
    obtain ⟨r, hr⟩ := getProperty_ok (ρ := Nat) F d (h t (by simp))
    rw [getProps, hr]
    exact getProps_ok F d p ts _ _ fun u hu => h u (by simp [hu])

mutual
theorem getItems_ok (F : FloatText) (d : Bool) : ∀ (ts : List Tag) (parent : Option Nat) (hasProps : Bool)
    (props : Map Bytes (Value Nat)) (st : DecState), AllTagsIn FontOk ts → ∃ r, getItems F d ts parent hasProps props st = .ok r
  | [], _, _, _, _, _ => ⟨_, rfl⟩
  | t :: ts, parent, hasProps, props, st, h => by
    rw [AllTagsIn] at h
    obtain ⟨⟨ids, hp, props', st'⟩, hr⟩ := getItem_ok F d t parent hasProps props st h.1
    obtain ⟨⟨ids', props'', st''⟩, hr'⟩ := getItems_ok F d ts parent hp props' st' h.2
    rw [getItems, hr]
    simp only [hr']
    exact ⟨_, rfl⟩
theorem getItem_ok (F : FloatText) (d : Bool) : ∀ (t : Tag) (parent : Option Nat) (hasProps : Bool)
    (props : Map Bytes (Value Nat)) (st : DecState), AllTags FontOk t → ∃ r, getItem F d t parent hasProps props st = .ok r
  | ⟨hd, ts⟩, parent, hasProps, props, st, h => by
    rw [AllTags] at h
    rw [getItem.eq_def]
    simp only
    split
    · split
      · exact ⟨_, rfl⟩
      · rename_i cls hcls
        obtain ⟨⟨kids, own, st'⟩, hr⟩ := getItems_ok F d ts (some st.heap.length) false []
          (enterItem cls (attrValue hd.attr (str "referent")) st) h.2
        simp only [hr]
        exact ⟨_, rfl⟩
    · split
      · split
        · exact ⟨_, rfl⟩
        · rename_i p
          split
          · exact ⟨_, rfl⟩
          · obtain ⟨r, hr⟩ := getProps_ok F d p ts props st fun t ht => allTags_head (allTagsIn_mem h.2 t ht)
            simp only [hr]
            exact ⟨_, rfl⟩
      · exact ⟨_, rfl⟩
end

theorem codecDecode_ok (F : FloatText) (d : Bool) (root : Option Tag) (h : ∀ t, root = some t → AllTagsIn FontOk t.tags) :
    ∃ r, codecDecode F d root = .ok r := by
  unfold codecDecode
  cases root with
  | none => exact ⟨_, rfl⟩
  | some t =>
    obtain ⟨r, hr⟩ := getItems_ok F d t.tags none false [] {} (h t rfl)
    simp only [hr]
    exact ⟨_, rfl⟩

end Rbxlx

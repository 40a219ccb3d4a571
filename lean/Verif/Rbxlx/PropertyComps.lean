import Verif.Rbxlx.PropertyText
import Batteries.Data.List.Perm
/-!
# Reading the components of a value: lemmas
-/
namespace Rbxlx
open Go Rbxfile Spec

/-- The first tag with a name. -/
def firstB (ts : List Tag) (name : Bytes) : Option Tag := ts.find? fun s => decide (s.head.startName = name)

theorem firstB_nil (name : Bytes) : firstB [] name = none := rfl

theorem firstB_cons (t : Tag) (ts : List Tag) (name : Bytes) :
    firstB (t :: ts) name = if t.head.startName = name then some t else firstB ts name := by
  unfold firstB
  rw [List.find?_cons]
  by_cases h : t.head.startName = name <;> simp [h]

/-- What a component stores. -/
def CompRes.stored : CompRes → Option CompVal
  | .next v => v
  | .stop _ v => v

/-- What the component of a name is read to. -/
def got (F : FloatText) (c : List (Bytes × Comp)) (ts : List Tag) (name : Bytes) : Option CompVal :=
  match Map.get? c name with
  | none => none
  | some k => (firstB ts name).bind fun t => (readComp F k t).stored

/-- No component ends the loop. -/
def Smooth (F : FloatText) (c : List (Bytes × Comp)) (d : List Bytes) (ts : List Tag) : Prop :=
  ∀ name k t, name ∉ d → Map.get? c name = some k → firstB ts name = some t → ∃ v, readComp F k t = .next v

/-- The variables after the loop. -/
def CompsStored (F : FloatText) (c : List (Bytes × Comp)) (d : List Bytes) (ts : List Tag) (vs vs' : CompVals) : Prop :=
  (∀ name, name ∉ d → Map.get? vs' name = got F c ts name) ∧ ∀ name, name ∈ d → Map.get? vs' name = Map.get? vs name

theorem get?_put (vs : CompVals) (n : Bytes) (v : Option CompVal) (m : Bytes) :
    Map.get? (vs.put n v) m = if m = n then v <|> Map.get? vs n else Map.get? vs m := by
  cases v with
  | none => simp only [CompVals.put]; split <;> simp_all
  | some x =>
    simp only [CompVals.put]
    rw [Map.get?_set]
    split <;> simp_all

theorem nodup_full {d c : List Bytes} (hd : d.Nodup) (hc : c.Nodup) (hs : ∀ x ∈ d, x ∈ c) :
    d.length = c.length ↔ ∀ x ∈ c, x ∈ d := by
  constructor
  · intro h
    have hp : d.Subperm c := List.subperm_of_subset hd hs
    exact fun x hx => (hp.perm_of_length_le (by omega)).mem_iff.2 hx
  · intro h
    have hp : c.Subperm d := List.subperm_of_subset hc h
    have hq : d.Subperm c := List.subperm_of_subset hd hs
    exact Nat.le_antisymm hq.length_le hp.length_le

theorem getFromLoop_outcome (F : FloatText) (c : List (Bytes × Comp)) (hc : (c.map Prod.fst).Nodup) :
    ∀ (ts : List Tag) (d : List Bytes) (vs : CompVals), d.Nodup → (∀ x ∈ d, x ∈ c.map Prod.fst) →
      (∀ x, x ∉ d → Map.get? vs x = none) →
    (∃ ok vs', getFromLoop F c ts d vs = (ok, vs') ∧ Smooth F c d ts ∧ CompsStored F c d ts vs vs' ∧
      (ok = true ↔ ∀ n ∈ c.map Prod.fst, n ∈ d ∨ firstB ts n ≠ none)) ∨
    (∃ pre t post k ok v vs', ts = pre ++ t :: post ∧ Map.get? c t.head.startName = some k ∧ t.head.startName ∉ d ∧
      firstB pre t.head.startName = none ∧ readComp F k t = .stop ok v ∧ Smooth F c d pre ∧
      getFromLoop F c ts d vs = (ok, vs') ∧ CompsStored F c d (pre ++ [t]) vs vs')
  | [], d, vs, hd, hs, hv => by
    left
    refine ⟨_, _, rfl, ?_, ⟨?_, fun _ _ => rfl⟩, ?_⟩
    · intro name k t _ _ h; cases h
    · intro name hn
      rw [hv name hn, got]
      cases Map.get? c name <;> rfl
    · rw [decide_eq_true_iff, ← List.length_map (as := c) (f := Prod.fst), nodup_full hd hc hs]
      simp [firstB_nil]
  | t :: ts, d, vs, hd, hs, hv => by
    have skip : (∀ n ∈ c.map Prod.fst, n ∉ d → t.head.startName ≠ n) →
        getFromLoop F c (t :: ts) d vs = getFromLoop F c ts d vs →
        (∃ ok vs', getFromLoop F c (t :: ts) d vs = (ok, vs') ∧ Smooth F c d (t :: ts) ∧ CompsStored F c d (t :: ts) vs vs' ∧
          (ok = true ↔ ∀ n ∈ c.map Prod.fst, n ∈ d ∨ firstB (t :: ts) n ≠ none)) ∨
        (∃ pre t' post k ok v vs', t :: ts = pre ++ t' :: post ∧ Map.get? c t'.head.startName = some k ∧
          t'.head.startName ∉ d ∧ firstB pre t'.head.startName = none ∧ readComp F k t' = .stop ok v ∧ Smooth F c d pre ∧
          getFromLoop F c (t :: ts) d vs = (ok, vs') ∧ CompsStored F c d (pre ++ [t']) vs vs') := by
      intro hn he
      have hfirst : ∀ l name k, name ∉ d → Map.get? c name = some k → firstB (t :: l) name = firstB l name := by
        intro l name k h1 h2
        rw [firstB_cons, if_neg (hn name (Map.get?_isSome.1 (by rw [h2]; rfl)) h1)]
      have hgot : ∀ l name, name ∉ d → got F c (t :: l) name = got F c l name := by
        intro l name h
        unfold got
        rcases hk : Map.get? c name with _ | k
        · rfl
        · simp only [hfirst l name k h hk]
      rw [he]
      rcases getFromLoop_outcome F c hc ts d vs hd hs hv with ⟨ok, vs', h1, h2, h3, h4⟩ | ⟨pre, t', post, k, ok, v, vs', h1, h2, h3, h4, h5, h6, h7, h8⟩
      · left
        refine ⟨ok, vs', h1, ?_, ⟨?_, h3.2⟩, ?_⟩
        · intro name k s a b e
          rw [hfirst _ _ _ a b] at e
          exact h2 name k s a b e
        · intro name hnd
          rw [hgot _ _ hnd]
          exact h3.1 name hnd
        · rw [h4]
          constructor
          · intro h n hm
            by_cases hx : n ∈ d
            · exact .inl hx
            · right
              rw [firstB_cons, if_neg (hn n hm hx)]
              exact (h n hm).resolve_left hx
          · intro h n hm
            by_cases hx : n ∈ d
            · exact .inl hx
            · right
              have := (h n hm).resolve_left hx
              rwa [firstB_cons, if_neg (hn n hm hx)] at this
      · right
        refine ⟨t :: pre, t', post, k, ok, v, vs', by rw [h1]; rfl, h2, h3, ?_, h5, ?_, h7, ⟨?_, h8.2⟩⟩
        · rw [hfirst _ _ _ h3 h2]; exact h4
        · intro name k s a b e
          rw [hfirst _ _ _ a b] at e
          exact h6 name k s a b e
        · intro name hnd
          rw [List.cons_append, hgot _ _ hnd]
          exact h8.1 name hnd
    rcases hk : Map.get? c t.head.startName with _ | k
    · exact skip (by
        rintro n hm - rfl
        rw [Map.get?_eq_none] at hk
        exact hk hm) (by rw [getFromLoop]; simp only [hk])
    · by_cases hin : t.head.startName ∈ d
      · exact skip (by rintro n hm hx rfl; exact hx hin) (by rw [getFromLoop]; simp only [hk, if_pos hin])
      · rcases hr : readComp F k t with v | ⟨ok, v⟩
        · have he : getFromLoop F c (t :: ts) d vs = getFromLoop F c ts (t.head.startName :: d) (vs.put t.head.startName v) := by
            rw [getFromLoop]; simp only [hk, if_neg hin, hr]
          have hkc : t.head.startName ∈ c.map Prod.fst := Map.get?_isSome.1 (by rw [hk]; rfl)
          have hput : ∀ x, x ≠ t.head.startName → Map.get? (vs.put t.head.startName v) x = Map.get? vs x := by
            intro x hx
            rw [get?_put, if_neg hx]
          have hself : ∀ l, Map.get? (vs.put t.head.startName v) t.head.startName = got F c (t :: l) t.head.startName := by
            intro l
            rw [get?_put, if_pos rfl, hv _ hin, got, hk]
            simp only [firstB_cons, if_pos, Option.bind_some, hr, CompRes.stored]
            cases v <;> rfl
          have hgot : ∀ l name, name ≠ t.head.startName → got F c (t :: l) name = got F c l name := by
            intro l name h
            unfold got
            cases hk' : Map.get? c name with
            | none => rfl
            | some k' => simp only [firstB_cons, if_neg (Ne.symm h)]
          have hstored : ∀ l vs', CompsStored F c (t.head.startName :: d) l (vs.put t.head.startName v) vs' →
              CompsStored F c d (t :: l) vs vs' := by
            rintro l vs' ⟨h1, h2⟩
            constructor
            · intro name hnd
              by_cases hx : name = t.head.startName
              · subst hx
                rw [h2 _ (by simp), hself l]
              · rw [h1 name (by simp [hx, hnd]), hgot _ _ hx]
            · intro name hnd
              have hx : name ≠ t.head.startName := by rintro rfl; exact hin hnd
              rw [h2 name (by simp [hnd]), hput _ hx]
          have hsmooth : ∀ l, Smooth F c (t.head.startName :: d) l → Smooth F c d (t :: l) := by
            intro l h name k' s a b e
            by_cases hx : name = t.head.startName
            · subst hx
              rw [firstB_cons, if_pos rfl] at e
              cases e
              rw [hk] at b
              cases b
              exact ⟨v, hr⟩
            · rw [firstB_cons, if_neg (Ne.symm hx)] at e
              exact h name k' s (by simp [hx, a]) b e
          rw [he]
          rcases getFromLoop_outcome F c hc ts (t.head.startName :: d) (vs.put t.head.startName v)
              (List.nodup_cons.2 ⟨hin, hd⟩) (by
                intro x hx
                rcases List.mem_cons.1 hx with rfl | hx
                · exact hkc
                · exact hs x hx)
              (by
                intro x hx
                simp only [List.mem_cons, not_or] at hx
                rw [hput x hx.1, hv x hx.2]) with
            ⟨ok, vs', h1, h2, h3, h4⟩ | ⟨pre, t', post, k', ok, v', vs', h1, h2, h3, h4, h5, h6, h7, h8⟩
          · left
            refine ⟨ok, vs', h1, hsmooth _ h2, hstored _ _ h3, ?_⟩
            rw [h4]
            constructor
            · intro h n hm
              by_cases hx : n = t.head.startName
              · subst hx
                right; rw [firstB_cons, if_pos rfl]; nofun
              · rw [firstB_cons, if_neg (Ne.symm hx)]
                exact (h n hm).imp (fun h => (List.mem_cons.1 h).resolve_left hx) id
            · intro h n hm
              by_cases hx : n = t.head.startName
              · subst hx; left; simp
              · have := h n hm
                rw [firstB_cons, if_neg (Ne.symm hx)] at this
                exact this.imp (fun h => List.mem_cons.2 (.inr h)) id
          · right
            simp only [List.mem_cons, not_or] at h3
            refine ⟨t :: pre, t', post, k', ok, v', vs', by rw [h1]; rfl, h2, h3.2, ?_, h5, hsmooth _ h6, h7, hstored _ _ h8⟩
            rw [firstB_cons, if_neg (Ne.symm h3.1)]
            exact h4
        · right
          refine ⟨[], t, ts, k, ok, v, vs.put t.head.startName v, rfl, hk, hin, rfl, hr, ?_, ?_, ?_⟩
          · intro name k s _ _ h; cases h
          · rw [getFromLoop]; simp only [hk, if_neg hin, hr]
          · constructor
            · intro name hnd
              rw [get?_put]
              by_cases hx : name = t.head.startName
              · subst hx
                rw [if_pos rfl, hv _ hin, got, hk]
                simp only [List.nil_append, firstB_cons, if_pos, Option.bind_some, hr, CompRes.stored]
                cases v <;> rfl
              · rw [if_neg hx, hv name hnd, got]
                cases Map.get? c name with
                | none => rfl
                | some k' => simp only [List.nil_append, firstB_cons, if_neg (Ne.symm hx), firstB_nil, Option.bind_none]
            · intro name hnd
              rw [get?_put, if_neg (by rintro rfl; exact hin hnd)]

/-- What `getFrom` returns. -/
theorem getFrom_outcome (F : FloatText) (c : List (Bytes × Comp)) (hc : (c.map Prod.fst).Nodup) (t : Tag) :
    (∃ ok vs, getFrom F c t = (ok, vs) ∧ Smooth F c [] t.tags ∧ (∀ name, Map.get? vs name = got F c t.tags name) ∧
      (ok = true ↔ ∀ n ∈ c.map Prod.fst, firstB t.tags n ≠ none)) ∨
    (∃ pre s post k ok v vs, t.tags = pre ++ s :: post ∧ Map.get? c s.head.startName = some k ∧
      firstB pre s.head.startName = none ∧ readComp F k s = .stop ok v ∧ Smooth F c [] pre ∧
      getFrom F c t = (ok, vs) ∧ ∀ name, Map.get? vs name = got F c (pre ++ [s]) name) := by
  rcases getFromLoop_outcome F c hc t.tags [] [] List.nodup_nil nofun (fun _ _ => rfl) with
    ⟨ok, vs', h1, h2, h3, h4⟩ | ⟨pre, t', post, k, ok, v, vs', h1, h2, h3, h4, h5, h6, h7, h8⟩
  · exact .inl ⟨ok, vs', h1, h2, fun n => h3.1 n (by simp), by simpa using h4⟩
  · exact .inr ⟨pre, t', post, k, ok, v, vs', h1, h2, h4, h5, h6, h7, fun n => h8.1 n (by simp)⟩

end Rbxlx

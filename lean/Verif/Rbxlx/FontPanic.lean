import Verif.Spec.XmlPanics
import Verif.Rbxlx.PropertyValue
import Verif.Rbxlx.NoPanic
import Verif.Props.XmlProperty
/-!
# Exactly when the XML decoder panics
-/
namespace Rbxlx
open Go Rbxfile Spec

section
variable {ρ : Type}

theorem tag_family_iff (F : FloatText) (t : Tag) :
    (∃ vs, getFrom F fontComps t = (true, vs) ∧ vs.tag (str "Family") = none) ↔ BadFont t := by
  have e : (∃ vs, getFrom F fontComps t = (true, vs) ∧ vs.tag (str "Family") = none) ↔
      ∃ w st, ∃ vs, getFrom F fontComps t = (true, vs) ∧
        ((none : Option Tag), w, st) = (vs.tag (str "Family"), vs.weight (str "Weight"), vs.style (str "Style")) := by
    constructor
    · rintro ⟨vs, h1, h2⟩
      exact ⟨_, _, vs, h1, by rw [h2]⟩
    · rintro ⟨w, st, vs, h1, h2⟩
      exact ⟨vs, h1, (Prod.mk.inj h2).1.symm⟩
  rw [e]
  simp only [← fontComps_iff]
  constructor
  · rintro ⟨w, st, seen, cut, hs, h1, h2, h3, h4⟩
    cases cut with
    | false => exact absurd rfl (h2 rfl)
    | true =>
      obtain ⟨-, before, last, after, e1, rfl, n, hn, hl, hf, ho⟩ := hs
      simp only [List.mem_singleton] at hn
      subst hn
      rw [firstTag_eq, firstB_append] at h1
      refine ⟨before, last, after, e1, hl, ho, hf, ?_, ?_⟩
      · rw [firstTag_eq]
        exact (Option.or_eq_none_iff.1 h1.symm).1
      · intro s hst
        unfold StyleAt at h4
        rw [firstTag_eq, firstB_append, ← firstTag_eq, hst, Option.some_or] at h4
        exact ⟨st, h4⟩
  · rintro ⟨before, last, after, e1, hl, ho, hf, h5, h6⟩
    have hlast : ∀ n : String, str n ≠ str "Weight" → firstB [last] (str n) = none := by
      intro n hn
      rw [firstB_cons, hl, if_neg (fun h => hn h.symm)]
      rfl
    have hw : firstTag (before ++ [last]) "Weight" = some last := by
      rw [firstTag_eq, firstB_append, ← firstTag_eq, hf, Option.none_or, firstB_cons, if_pos hl]
    have hst : ∃ st, StyleAt (before ++ [last]) true st := by
      have e : firstTag (before ++ [last]) "Style" = firstTag before "Style" := by
        rw [firstTag_eq, firstB_append, hlast "Style" (by decide +kernel), Option.or_none, ← firstTag_eq]
      unfold StyleAt
      rw [e]
      rcases hs : firstTag before "Style" with _ | s
      · exact ⟨0, rfl, rfl⟩
      · exact h6 s hs
    obtain ⟨st, hst⟩ := hst
    obtain ⟨k, hk, -⟩ := id ho
    refine ⟨BitVec.ofInt 16 (clampInt 16 k), st, before ++ [last], true, ⟨?_, before, last, after, e1, rfl, "Weight", by simp, hl, hf, ho⟩,
      ?_, nofun, ?_, hst⟩
    · intro n hn s hs
      simp only [List.mem_singleton] at hn
      subst hn
      rw [if_pos rfl, List.dropLast_concat, hf] at hs
      cases hs
    · rw [firstTag_eq, firstB_append, ← firstTag_eq, h5, Option.none_or, hlast "Family" (by decide +kernel)]
    · unfold IntAt
      rw [hw]
      exact ⟨k, hk, rfl⟩

theorem fontValue_panic_iff (F : FloatText) (d : Bool) (t : Tag) : fontValue (ρ := ρ) F d t = .panic ↔ BadFont t := by
  rw [← tag_family_iff F]
  have fc : [(str "Family", Comp.tag), (str "Weight", .weight), (str "Style", .style)] = fontComps := rfl
  unfold fontValue
  simp only [fc]
  rcases getFrom F fontComps t with ⟨ok, vs⟩
  cases ok with
  | false => simp
  | true =>
    simp only [Bool.not_true, Bool.false_eq_true, if_false, Prod.mk.injEq, true_and, exists_eq_left']
    rcases hf : vs.tag (str "Family") with _ | s
    · simp
    · simp only [reduceCtorEq, iff_false]
      cases contentValue d s with
      | none => nofun
      | some fam =>
        simp only
        split
        · nofun
        · rename_i h1 h2
          have := getFrom_tags F (c := [(str "CachedFaceId", .tag)]) (n := str "CachedFaceId")
            (by intro n k hk; have := Map.mem_of_get? hk; simp at this; exact this.2) h1 (by simp [Map.get?])
          rw [h2] at this; cases this
        · split <;> nofun

theorem getValue_panic_iff (F : FloatText) (d : Bool) (t : Tag) (ty : Ty) :
    getValue (ρ := ρ) F d t ty = .panic ↔ ty = .font ∧ BadFont t := by
  by_cases h : ty = .font
  · subst h
    simp only [getValue, true_and]
    exact fontValue_panic_iff F d t
  · obtain ⟨o, ho⟩ := getValue_ok (ρ := ρ) F d (t := t) ty (fun e => absurd e h)
    rw [ho]
    simp [h]

theorem propValue_panic_iff (F : FloatText) (d : Bool) (n : Bytes) (ty : Ty) (o : Bool) (t : Tag) :
    propValue (ρ := ρ) F d n ty o t = .panic ↔ ty = .font ∧ BadFont t := by
  rw [← getValue_panic_iff (ρ := ρ) F d]
  unfold propValue
  rcases getValue (ρ := ρ) F d t ty with v | e | _
  · cases v with
    | none => simp
    | some v =>
      simp only [reduceCtorEq, iff_false]
      split
      · split <;> nofun
      · nofun
      · nofun
  · simp
  · simp

theorem getProperty_panic_iff (F : FloatText) (d : Bool) (t : Tag) : getProperty (ρ := ρ) F d t = .panic ↔ CrashingFont t := by
  unfold getProperty CrashingFont
  have hty : TypeTag t.head.startName .font ↔ getCanonType t.head.startName = (.font, false) :=
    (Props.C80_type t.head.startName .font (by decide)).1
  rw [hty]
  rcases attrValue t.head.attr (str "name") with _ | n
  · simp
  · rcases hc : getCanonType t.head.startName with ⟨ty, o⟩
    simp only [ne_eq, reduceCtorEq, not_false_eq_true, true_and, Prod.mk.injEq]
    cases o with
    | false =>
      simp only [Bool.false_eq_true, if_false, and_true]
      exact propValue_panic_iff F d n ty false t
    | true =>
      simp only [if_true, Bool.true_eq_false, and_false, false_and, iff_false]
      rcases ho : getOptional F t ty with _ | u
      · nofun
      · cases u with
        | none => nofun
        | some u =>
          simp only
          rw [propValue_panic_iff]
          rintro ⟨rfl, -⟩
          unfold getOptional at ho
          split at ho
          · cases ho
          · simp at ho

theorem getProperty_no_err (F : FloatText) (d : Bool) (t : Tag) (e : Err) : getProperty (ρ := ρ) F d t ≠ .err e := by
  intro hg
  unfold getProperty at hg
  split at hg
  · cases hg
  · simp only at hg
    split at hg
    · split at hg
      · cases hg
      · cases hg
      · exact Props.propValue_no_err _ _ _ _ _ _ _ hg
    · exact Props.propValue_no_err _ _ _ _ _ _ _ hg

end

theorem getProps_panic_iff (F : FloatText) (d : Bool) (p : Nat) : ∀ (ts : List Tag) (props : Map Bytes (Value Nat)) (st : DecState),
    getProps F d p ts props st = .panic ↔ ∃ t ∈ ts, CrashingFont t
  | [], _, _ => by simp [getProps]
  | t :: ts, props, st => by
    rw [getProps]
    have h := getProperty_panic_iff (ρ := Nat) F d t
    rcases hg : getProperty (ρ := Nat) F d t with r | e | _
    · rw [hg] at h
      simp only [getProps_panic_iff F d p ts, List.mem_cons, exists_eq_or_imp]
      simp only [reduceCtorEq, false_iff] at h
      simp [h]
    · exact absurd hg (getProperty_no_err F d t e)
    · rw [hg] at h
      simp only [true_iff] at h
      simp [h]

theorem getProps_no_err (F : FloatText) (d : Bool) (p : Nat) (e : Err) : ∀ (ts : List Tag) (props : Map Bytes (Value Nat))
    (st : DecState), getProps F d p ts props st ≠ .err e
  | [], _, _ => by simp [getProps]
  | t :: ts, props, st => by
    rw [getProps]
    rcases hg : getProperty (ρ := Nat) F d t with r | e | _
    · exact getProps_no_err F d p e ts _ _
    · exact absurd hg (getProperty_no_err F d t e)
    · nofun

theorem propertyIn_cons {t : Tag} {ts : List Tag} {u : Tag} : PropertyIn (t :: ts) u ↔
    (t.head.startName = str "Item" ∧ attrValue t.head.attr (str "class") ≠ none ∧ (u ∈ propertyTags t.tags ∨ PropertyIn t.tags u)) ∨
    PropertyIn ts u := by
  constructor
  · rintro (⟨hi, h1, h2, h3⟩ | ⟨hi, h1, h2, h3⟩)
    · rcases List.mem_cons.1 hi with rfl | hi
      · exact .inl ⟨h1, h2, .inl h3⟩
      · exact .inr (.own hi h1 h2 h3)
    · rcases List.mem_cons.1 hi with rfl | hi
      · exact .inl ⟨h1, h2, .inr h3⟩
      · exact .inr (.child hi h1 h2 h3)
  · rintro (⟨h1, h2, h3 | h3⟩ | ⟨hi, h1, h2, h3⟩ | ⟨hi, h1, h2, h3⟩)
    · exact .own List.mem_cons_self h1 h2 h3
    · exact .child List.mem_cons_self h1 h2 h3
    · exact .own (List.mem_cons_of_mem _ hi) h1 h2 h3
    · exact .child (List.mem_cons_of_mem _ hi) h1 h2 h3

theorem not_propertyIn_nil (u : Tag) : ¬ PropertyIn [] u := by
  rintro (⟨hi, -⟩ | ⟨hi, -⟩) <;> cases hi

theorem propertyTags_cons (t : Tag) (ts : List Tag) : propertyTags (t :: ts) =
    if t.head.startName = str "Properties" then t.tags else propertyTags ts := by
  unfold propertyTags
  rw [List.find?_cons]
  by_cases h : t.head.startName = str "Properties" <;> simp [h]

theorem item_ne_properties : str "Item" ≠ str "Properties" := by decide +kernel

mutual
theorem getItems_panic (F : FloatText) (d : Bool) : ∀ (ts : List Tag) (parent : Option Nat) (hasProps : Bool)
    (props : Map Bytes (Value Nat)) (st : DecState), (∀ e, getItems F d ts parent hasProps props st ≠ .err e) ∧
    (getItems F d ts parent hasProps props st = .panic ↔
      (∃ t, PropertyIn ts t ∧ CrashingFont t) ∨ (parent ≠ none ∧ hasProps = false ∧ ∃ t ∈ propertyTags ts, CrashingFont t))
  | [], _, _, _, _ => by
    rw [getItems]
    refine ⟨nofun, ?_⟩
    simp only [reduceCtorEq, false_iff, not_or, not_exists, not_and]
    exact ⟨fun t h => absurd h (not_propertyIn_nil t), fun _ _ t ht => by cases ht⟩
  | t :: ts, parent, hasProps, props, st => by
    obtain ⟨h1, h2, h3⟩ := getItem_panic F d t parent hasProps props st
    rw [getItems]
    simp only [propertyIn_cons, propertyTags_cons]
    rcases hg : getItem F d t parent hasProps props st with ⟨ids, hp, props', st'⟩ | e | _
    · obtain ⟨i1, i2⟩ := getItems_panic F d ts parent hp props' st'
      have h3 := h3 _ _ _ _ hg
      rw [hg] at h2
      simp only [reduceCtorEq, false_iff] at h2
      simp only
      rcases hr : getItems F d ts parent hp props' st' with ⟨ids', props'', st''⟩ | e | _
      · refine ⟨nofun, ?_⟩
        rw [hr] at i2
        simp only [reduceCtorEq, false_iff] at i2 ⊢
        by_cases hpr : t.head.startName = str "Properties"
        · rw [if_pos hpr]
          grind
        · rw [if_neg hpr]
          grind
      · exact absurd hr (i1 e)
      · refine ⟨nofun, ?_⟩
        rw [hr] at i2
        simp only [true_iff] at i2 ⊢
        by_cases hpr : t.head.startName = str "Properties"
        · rw [if_pos hpr]
          grind
        · rw [if_neg hpr]
          grind
    · exact absurd hg (h1 e)
    · rw [hg] at h2
      simp only [true_iff] at h2
      refine ⟨nofun, ?_⟩
      simp only [true_iff]
      rcases h2 with ⟨a, b, u, hu, hb⟩ | ⟨a, b, c, u, hu, hb⟩
      · exact .inl ⟨u, .inl ⟨a, b, hu⟩, hb⟩
      · rw [if_pos a]
        exact .inr ⟨b, c, u, hu, hb⟩
theorem getItem_panic (F : FloatText) (d : Bool) : ∀ (t : Tag) (parent : Option Nat) (hasProps : Bool)
    (props : Map Bytes (Value Nat)) (st : DecState), (∀ e, getItem F d t parent hasProps props st ≠ .err e) ∧
    (getItem F d t parent hasProps props st = .panic ↔
      (t.head.startName = str "Item" ∧ attrValue t.head.attr (str "class") ≠ none ∧
        ∃ u, (u ∈ propertyTags t.tags ∨ PropertyIn t.tags u) ∧ CrashingFont u) ∨
      (t.head.startName = str "Properties" ∧ parent ≠ none ∧ hasProps = false ∧ ∃ u ∈ t.tags, CrashingFont u)) ∧
    ∀ ids hp props' st', getItem F d t parent hasProps props st = .ok (ids, hp, props', st') →
      (hp = true ↔ hasProps = true ∨ (t.head.startName = str "Properties" ∧ parent ≠ none))
  | ⟨hd, ts⟩, parent, hasProps, props, st => by
    have hh : (Tag.mk hd ts).head = hd := rfl
    have hts : (Tag.mk hd ts).tags = ts := rfl
    rw [getItem.eq_def]
    simp only [hh, hts]
    by_cases hi : hd.startName = str "Item"
    · rw [if_pos hi]
      have hn : hd.startName ≠ str "Properties" := by rw [hi]; exact item_ne_properties
      rcases hc : attrValue hd.attr (str "class") with _ | cls
      · simp only
        refine ⟨nofun, ?_, ?_⟩
        · simp [hn, hc]
        · intro ids hp props' st' e
          cases e
          simp [hn]
      · simp only
        obtain ⟨i1, i2⟩ := getItems_panic F d ts (some st.heap.length) false []
          (enterItem cls (attrValue hd.attr (str "referent")) st)
        rcases hr : getItems F d ts (some st.heap.length) false [] (enterItem cls (attrValue hd.attr (str "referent")) st)
          with ⟨kids, own, st'⟩ | e | _
        · rw [hr] at i2
          simp only
          refine ⟨nofun, ?_, ?_⟩
          · simp only [reduceCtorEq, false_iff] at i2 ⊢
            grind
          · intro ids hp props' st' e
            cases e
            simp [hn]
        · exact absurd hr (i1 e)
        · rw [hr] at i2
          simp only
          refine ⟨nofun, ?_, nofun⟩
          simp only [true_iff] at i2 ⊢
          grind
    · rw [if_neg hi]
      by_cases hp : hd.startName = str "Properties"
      · rw [if_pos hp]
        cases parent with
        | none =>
          simp only
          refine ⟨nofun, by simp [hi], ?_⟩
          intro ids hp props' st' e
          cases e
          simp
        | some p =>
          simp only
          cases hasProps with
          | true =>
            rw [if_pos rfl]
            refine ⟨nofun, by simp [hi], ?_⟩
            intro ids hp props' st' e
            cases e
            simp
          | false =>
            simp only [Bool.false_eq_true, if_false]
            have hg := getProps_panic_iff F d p ts props st
            rcases hr : getProps F d p ts props st with ⟨props', st'⟩ | e | _
            · rw [hr] at hg
              simp only
              refine ⟨nofun, ?_, ?_⟩
              · simp only [reduceCtorEq, false_iff] at hg ⊢
                grind
              · intro ids hp' props' st' e
                cases e
                simp [hp]
            · exact absurd hr (getProps_no_err F d p e ts props st)
            · rw [hr] at hg
              simp only
              refine ⟨nofun, ?_, nofun⟩
              simp only [true_iff] at hg ⊢
              grind
      · rw [if_neg hp]
        refine ⟨nofun, by simp [hi, hp], ?_⟩
        intro ids hp' props' st' e
        cases e
        simp [hp]
end

theorem codecDecode_panic (F : FloatText) (d : Bool) (root : Option Tag) : (∀ e, codecDecode F d root ≠ .err e) ∧
    (codecDecode F d root = .panic ↔ ∃ doc, root = some doc ∧ ∃ t, PropertyIn doc.tags t ∧ CrashingFont t) := by
  unfold codecDecode
  cases root with
  | none => simp
  | some t =>
    obtain ⟨i1, i2⟩ := getItems_panic F d t.tags none false [] {}
    simp only
    rcases hr : getItems F d t.tags none false [] {} with r | e | _
    · rw [hr] at i2
      simp only
      refine ⟨nofun, ?_⟩
      simp only [reduceCtorEq, false_iff] at i2 ⊢
      grind
    · exact absurd hr (i1 e)
    · rw [hr] at i2
      refine ⟨nofun, ?_⟩
      simp only [true_iff] at i2 ⊢
      grind

end Rbxlx

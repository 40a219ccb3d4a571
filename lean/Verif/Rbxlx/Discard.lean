import Verif.Rbxlx.NoPanic
import Verif.Spec.XmlValue
/-!
# Discarding invalid properties
-/
namespace Rbxlx
open Go Rbxfile Spec

variable {ρ : Type}

/-- With `discard`, a result of `f` is kept and the others are dropped; without, `Q` holds for the others. -/
structure Lossy {α : Type} (Q : α → Prop) (f : Bool → Option α) : Prop where
  same : ∀ v, f true = some v → f false = some v
  other : f true = none → ∃ v, f false = some v ∧ Q v

theorem Lossy.some {α : Type} {Q : α → Prop} (v : α) : Lossy Q fun _ => some v := ⟨fun _ h => h, nofun⟩

theorem Lossy.invalid (z : Value ρ) : Lossy (· = z) fun d => Rbxlx.invalid d z := ⟨nofun, fun _ => ⟨z, rfl, rfl⟩⟩

theorem lossy_comp (F : FloatText) (c : List (Bytes × Comp)) (z : Value ρ) (mk : CompVals → Value ρ) (t : Tag) :
    Lossy (· = z) fun d => compValue F d c z mk t := by
  unfold compValue
  simp only
  split
  · exact .invalid z
  · exact .some _

theorem lossy_pair (F : FloatText) (n1 n2 : Bytes) (c : List (Bytes × Comp)) (z : Value ρ)
    (mk : CompVals → CompVals → Value ρ) (t : Tag) : Lossy (· = z) fun d => pairValue F d n1 n2 c z mk t := by
  unfold pairValue
  simp only
  split
  · exact .invalid z
  · split
    · split
      · exact .invalid z
      · split
        · exact .invalid z
        · exact .some _
    · exact .invalid z

theorem lossy_num {α : Type} (r : α × NumErr) (z : Value ρ) (mk : α → Value ρ) :
    Lossy (· = z) fun d => numValue d r z mk := by
  unfold numValue
  split
  · exact .invalid z
  · exact .some _

theorem lossy_bool (t : Tag) : Lossy (· = false) fun d => boolValue d t := by
  unfold boolValue
  simp only
  split
  · exact .some _
  · split
    · exact .some _
    · exact ⟨nofun, fun _ => ⟨false, rfl, rfl⟩⟩

theorem content_same (t : Tag) {v : Bytes} (h : contentValue true t = some v) : contentValue false t = some v := by
  have aux : ∀ has : Bool, ((if has = true then none else match t.tags with
      | s :: _ =>
        if s.head.startName = str "binary" ∨ s.head.startName = str "hash" ∨ s.head.startName = str "null" then some []
        else if s.head.startName = str "url" then some (getContent s)
        else if true = true then none else some []
      | [] => if true = true then none else some []) : Option Bytes) = some v →
      (if has = true then none else match t.tags with
      | s :: _ =>
        if s.head.startName = str "binary" ∨ s.head.startName = str "hash" ∨ s.head.startName = str "null" then some []
        else if s.head.startName = str "url" then some (getContent s)
        else if false = true then none else some []
      | [] => if false = true then none else some []) = some v := by
    intro has h
    cases has
    · rw [if_neg (by simp)] at h ⊢
      cases ht : t.tags with
      | nil => rw [ht] at h; cases h
      | cons s ts =>
        simp only [ht] at h ⊢
        split at h
        · rw [if_pos ‹_›]; exact h
        · rw [if_neg ‹_›]
          split at h
          · rw [if_pos ‹_›]; exact h
          · cases h
    · cases h
  exact aux _ h

theorem readBe64_some {b : Bytes} (h : 8 ≤ b.length) : ∃ x r, readBe64 b = .ok (x, r) ∧ r.length + 8 = b.length := by
  match b, h with
  | b0 :: b1 :: b2 :: b3 :: b4 :: b5 :: b6 :: b7 :: r, _ => exact ⟨_, _, rfl, by simp⟩

theorem readBe32_some {b : Bytes} (h : 4 ≤ b.length) : ∃ x r, readBe32 b = .ok (x, r) ∧ r.length + 4 = b.length := by
  match b, h with
  | b0 :: b1 :: b2 :: b3 :: r, _ => exact ⟨_, _, rfl, by simp⟩

theorem lossy_uid (s : Bytes) : Lossy (· = .uniqueId 0 0 0) fun d => uniqueIdValue (ρ := ρ) d s := by
  unfold uniqueIdValue
  cases hexDecode (s.take 32) with
  | none => exact .invalid _
  | some b =>
    simp only
    by_cases hb : b.length < 16
    · simp only [if_pos hb]; exact .invalid _
    · simp only [if_neg hb]
      obtain ⟨x, r, e, hl⟩ := readBe64_some (b := b) (by omega)
      obtain ⟨y, r', e', hl'⟩ := readBe32_some (b := r) (by omega)
      obtain ⟨z, r'', e'', -⟩ := readBe32_some (b := r') (by omega)
      simp only [e, e', e'']
      exact .some _

/-- The same for results that are not errors. -/
theorem getValue_same (F : FloatText) (t : Tag) (ty : Ty) {v : Value ρ} (h : getValue F true t ty = .ok (some v)) :
    getValue F false t ty = .ok (some v) := by
  have key : ∀ {Q : Value ρ → Prop} {f : Bool → Option (Value ρ)}, Lossy Q f → (Res.ok (f true) : Res _) = .ok (some v) →
      (Res.ok (f false) : Res _) = .ok (some v) := by
    intro Q f hf h
    rw [Res.ok.injEq] at h
    rw [hf.same v h]
  cases ty <;> simp only [getValue] at h ⊢
  case axes | cframe | faces | udim | udim2 | vector2 | vector3 | vector2int16 | vector3int16 =>
    exact key (lossy_comp F _ _ _ t) h
  case ray | rect => exact key (lossy_pair F _ _ _ _ _ t) h
  case brickColor | int | token | int64 => exact key (lossy_num _ _ _) h
  case uniqueId => exact key (lossy_uid _) h
  case protectedString | string | reference => exact h
  case invalid | optional => cases h
  case bool =>
    simp only [Res.ok.injEq, Option.map_eq_some_iff] at h ⊢
    obtain ⟨b, hb, rfl⟩ := h
    exact ⟨b, (lossy_bool t).same b hb, rfl⟩
  case content =>
    simp only [Res.ok.injEq, Option.map_eq_some_iff] at h ⊢
    obtain ⟨b, hb, rfl⟩ := h
    exact ⟨b, content_same t hb, rfl⟩
  case color3 =>
    split at h
    · rw [if_pos ‹_›]; exact key (lossy_num _ _ _) h
    · rw [if_neg ‹_›]; exact key (lossy_comp F _ _ _ t) h
  case color3uint8 =>
    split at h
    · rw [if_pos ‹_›]; exact key (lossy_num _ _ _) h
    · rw [if_neg ‹_›]; exact key (lossy_comp F _ _ _ t) h
  case physicalProperties =>
    unfold physValue at *
    simp only at *
    split at h
    · cases h
    · rw [if_neg ‹_›]
      split at h
      · cases h
      · cases hb : boolValue true ‹Tag› with
        | none => simp only [hb] at h; cases h
        | some b =>
          simp only [hb] at h
          simp only [(lossy_bool _).same _ hb]
          cases b
          · exact h
          · simp only at h ⊢
            split at h
            · cases h
            · rw [if_neg ‹_›]; exact h
  case font =>
    unfold fontValue at *
    simp only at *
    split at h
    · cases h
    · rw [if_neg ‹_›]
      split at h
      · cases h
      · split at h
        · cases h
        · rename_i hb
          simp only [content_same _ hb]
          split at h
          · exact h
          · cases h
          · split at h
            · cases h
            · rename_i hc
              simp only [content_same _ hc]
              exact h
  all_goals
    split at h
    · cases h
    · first
      | exact h
      | (split at h
         · cases h
         · exact h)

/-- What happens to an invalid value if it is not discarded. -/
theorem getValue_other (F : FloatText) (t : Tag) (ty : Ty) (h1 : ty ≠ .invalid) (h2 : ty ≠ .optional) (h3 : ty ≠ .content)
    (h : getValue (ρ := ρ) F true t ty = .ok none) : ∃ v : Value ρ, getValue F false t ty = .ok (some v) ∧ v.type = ty ∧
      (ty ≠ .physicalProperties → ty ≠ .font → v = zeroXml ty) := by
  have key : ∀ {z : Value ρ} {f : Bool → Option (Value ρ)}, Lossy (· = z) f → (Res.ok (f true) : Res _) = .ok none →
      z.type = ty → z = zeroXml ty →
      ∃ v, (Res.ok (f false) : Res _) = .ok (some v) ∧ v.type = ty ∧
        (ty ≠ .physicalProperties → ty ≠ .font → v = zeroXml ty) := by
    intro z f hf h ht hz
    rw [Res.ok.injEq] at h
    obtain ⟨v, hv, rfl⟩ := hf.other h
    exact ⟨v, by rw [hv], ht, fun _ _ => hz⟩
  cases ty <;> simp only [getValue] at h ⊢
  case axes | cframe | faces | udim | udim2 | vector2 | vector3 | vector2int16 | vector3int16 =>
    exact key (lossy_comp F _ _ _ t) h rfl rfl
  case ray | rect => exact key (lossy_pair F _ _ _ _ _ t) h rfl rfl
  case brickColor | int | token | int64 => exact key (lossy_num _ _ _) h rfl rfl
  case uniqueId => exact key (lossy_uid _) h rfl rfl
  case protectedString | string | reference => cases h
  case invalid => exact absurd rfl h1
  case optional => exact absurd rfl h2
  case content => exact absurd rfl h3
  case bool =>
    simp only [Res.ok.injEq, Option.map_eq_none_iff] at h
    obtain ⟨b, hb, rfl⟩ := (lossy_bool t).other h
    exact ⟨.bool false, by rw [hb]; rfl, rfl, fun _ _ => rfl⟩
  case color3 =>
    split at h
    · rw [if_pos ‹_›]; exact key (lossy_num _ _ _) h rfl rfl
    · rw [if_neg ‹_›]; exact key (lossy_comp F _ _ _ t) h rfl rfl
  case color3uint8 =>
    split at h
    · rw [if_pos ‹_›]; exact key (lossy_num _ _ _) h rfl rfl
    · rw [if_neg ‹_›]; exact key (lossy_comp F _ _ _ t) h rfl rfl
  case physicalProperties =>
    unfold physValue at *
    simp only at *
    split at h
    · rw [if_pos ‹_›]; exact ⟨_, rfl, rfl, nofun⟩
    · rw [if_neg ‹_›]
      split at h
      · cases h
      · split
        · exact ⟨_, rfl, rfl, nofun⟩
        · exact ⟨_, rfl, rfl, nofun⟩
        · split <;> exact ⟨_, rfl, rfl, nofun⟩
  case font =>
    unfold fontValue at *
    simp only at *
    split at h
    · rw [if_pos ‹_›]; exact ⟨_, rfl, rfl, nofun⟩
    · rw [if_neg ‹_›]
      split at h
      · cases h
      · split
        · exact ⟨_, rfl, rfl, nofun⟩
        · split
          · exact ⟨_, rfl, rfl, nofun⟩
          · rename_i h1 h2
            have := getFrom_tags F (c := [(str "CachedFaceId", .tag)]) (n := str "CachedFaceId")
              (by intro n k hk; have := Map.mem_of_get? hk; simp at this; exact this.2) h1 (by simp [Map.get?])
            rw [h2] at this; cases this
          · split
            · exact ⟨_, rfl, rfl, nofun⟩
            · exact ⟨_, rfl, rfl, nofun⟩
  all_goals
    split at h
    · exact ⟨_, rfl, rfl, fun _ _ => rfl⟩
    · first
      | cases h
      | (split at h
         · exact ⟨_, rfl, rfl, fun _ _ => rfl⟩
         · cases h)

/-! ## Properties -/

theorem propValue_same (F : FloatText) (n : Bytes) (ty : Ty) (o : Bool) (t : Tag) {r : PropRes ρ} (hr : r ≠ .nothing)
    (h : propValue F true n ty o t = .ok r) : propValue F false n ty o t = .ok r := by
  unfold propValue at *
  rcases hv : getValue (ρ := ρ) F true t ty with v | e | _
  · cases v with
    | none => simp only [hv, Res.ok.injEq] at h; exact absurd h.symm hr
    | some v =>
      simp only [hv] at h
      simp only [getValue_same F t ty hv]
      exact h
  · simp only [hv] at h; cases h
  · simp only [hv] at h; cases h

/-- A property that is not invalid is the same in both modes. -/
theorem getProperty_same (F : FloatText) (t : Tag) {r : PropRes ρ} (hr : r ≠ .nothing)
    (h : getProperty F true t = .ok r) : getProperty F false t = .ok r := by
  unfold getProperty at *
  cases ha : attrValue t.head.attr (str "name") with
  | none => simp only [ha, Res.ok.injEq] at h; exact absurd h.symm hr
  | some n =>
    simp only [ha] at h ⊢
    split at h
    · rename_i ho
      rw [if_pos ho]
      split at h
      · rw [Res.ok.injEq] at h; exact absurd h.symm hr
      · exact h
      · exact propValue_same F _ _ _ _ hr h
    · rename_i ho
      rw [if_neg ho]
      exact propValue_same F _ _ _ _ hr h

/-- An invalid property: its value is not returned if invalid properties are discarded. -/
def Invalid (F : FloatText) (t : Tag) : Prop := getProperty (ρ := Nat) F true t = .ok .nothing

instance (F : FloatText) (t : Tag) : Decidable (Invalid F t) := by
  unfold Invalid
  exact match getProperty (ρ := Nat) F true t with
    | .ok .nothing => .isTrue rfl
    | .ok (.value ..) => .isFalse nofun
    | .ok (.ref ..) => .isFalse nofun
    | .ok (.shared ..) => .isFalse nofun
    | .err _ => .isFalse nofun
    | .panic => .isFalse nofun

/-- The tags without those of invalid properties. -/
def validOnly (F : FloatText) (ts : List Tag) : List Tag := ts.filter fun t => ¬ Invalid F t

mutual
/-- A tag without the invalid properties: those in a tag Properties, in any depth of Item. -/
def cleaned (F : FloatText) : Tag → Tag
  | ⟨h, ts⟩ =>
    if h.startName = str "Item" then ⟨h, cleanedAll F ts⟩
    else if h.startName = str "Properties" then ⟨h, validOnly F ts⟩
    else ⟨h, ts⟩
/-- Tags without the invalid properties. -/
def cleanedAll (F : FloatText) : List Tag → List Tag
  | [] => []
  | t :: ts => cleaned F t :: cleanedAll F ts
end

theorem cleaned_head (F : FloatText) (t : Tag) : (cleaned F t).head = t.head := by
  obtain ⟨h, ts⟩ := t
  rw [cleaned]
  split
  · rfl
  · split <;> rfl

theorem cleaned_other (F : FloatText) {t : Tag} (h1 : t.head.startName ≠ str "Item")
    (h2 : t.head.startName ≠ str "Properties") : cleaned F t = t := by
  obtain ⟨h, ts⟩ := t
  have h1' : h.startName ≠ str "Item" := h1
  have h2' : h.startName ≠ str "Properties" := h2
  rw [cleaned, if_neg h1', if_neg h2']

theorem getProps_cleaned (F : FloatText) (p : Nat) : ∀ (ts : List Tag) (props : Map Bytes (Value Nat)) (st : DecState),
    getProps F true p (validOnly F ts) props st = getProps F true p ts props st
  | [], _, _ => rfl
  | t :: ts, props, st => by
    have ih := getProps_cleaned F p ts
    unfold validOnly at *
    by_cases h : Invalid F t
    · rw [List.filter_cons_of_neg (by simpa using h), ih, getProps, show getProperty F true t = _ from h]
      rfl
    · rw [List.filter_cons_of_pos (by simpa using h), getProps, getProps]
      split
      · rfl
      · rfl
      · exact ih _ _

theorem getProps_valid (F : FloatText) (p : Nat) : ∀ (ts : List Tag) (props : Map Bytes (Value Nat)) (st : DecState)
    (r : Map Bytes (Value Nat) × DecState), (∀ t ∈ ts, ¬ Invalid F t) → getProps F true p ts props st = .ok r →
    getProps F false p ts props st = .ok r
  | [], _, _, _, _, h => h
  | t :: ts, props, st, r, hv, h => by
    rw [getProps] at *
    rcases h1 : getProperty (ρ := Nat) F true t with x | e | _
    · simp only [h1] at h
      have := hv t (by simp)
      rw [getProperty_same F t (r := x) (by rintro rfl; exact this h1) h1]
      exact getProps_valid F p ts _ _ _ (fun u hu => hv u (by simp [hu])) h
    · simp only [h1] at h; cases h
    · simp only [h1] at h; cases h

mutual
theorem getItems_cleaned (F : FloatText) : ∀ (ts : List Tag) (parent : Option Nat) (hasProps : Bool)
    (props : Map Bytes (Value Nat)) (st : DecState),
    getItems F true (cleanedAll F ts) parent hasProps props st = getItems F true ts parent hasProps props st
  | [], _, _, _, _ => by rw [cleanedAll]
  | t :: ts, parent, hasProps, props, st => by
    rw [cleanedAll, getItems, getItems, getItem_cleaned F t]
    split
    · rfl
    · rfl
    · rw [getItems_cleaned F ts]
theorem getItem_cleaned (F : FloatText) : ∀ (t : Tag) (parent : Option Nat) (hasProps : Bool)
    (props : Map Bytes (Value Nat)) (st : DecState),
    getItem F true (cleaned F t) parent hasProps props st = getItem F true t parent hasProps props st
  | ⟨hd, ts⟩, parent, hasProps, props, st => by
    rw [cleaned]
    split
    · rename_i h
      rw [getItem.eq_def, getItem.eq_def]
      simp only [if_pos h]
      split
      · rfl
      · rw [getItems_cleaned F ts]
    · rename_i h
      split
      · rename_i h'
        rw [getItem.eq_def, getItem.eq_def]
        simp only [if_neg h, if_pos h']
        split
        · rfl
        · simp only [getProps_cleaned]
      · rfl
end

mutual
theorem getItems_valid (F : FloatText) : ∀ (ts : List Tag) (parent : Option Nat) (hasProps : Bool)
    (props : Map Bytes (Value Nat)) (st : DecState) (r : List Nat × Map Bytes (Value Nat) × DecState),
    getItems F true (cleanedAll F ts) parent hasProps props st = .ok r →
    getItems F false (cleanedAll F ts) parent hasProps props st = .ok r
  | [], _, _, _, _, _, h => by rw [cleanedAll] at *; exact h
  | t :: ts, parent, hasProps, props, st, r, h => by
    rw [cleanedAll] at *
    rw [getItems] at *
    rcases h1 : getItem F true (cleaned F t) parent hasProps props st with ⟨ids, hp, props', st'⟩ | e | _
    · simp only [h1] at h
      simp only [getItem_valid F t _ _ _ _ _ h1]
      rcases h2 : getItems F true (cleanedAll F ts) parent hp props' st' with ⟨ids', props'', st''⟩ | e | _
      · simp only [h2] at h
        simp only [getItems_valid F ts _ _ _ _ _ h2]
        exact h
      · simp only [h2] at h; cases h
      · simp only [h2] at h; cases h
    · simp only [h1] at h; cases h
    · simp only [h1] at h; cases h
theorem getItem_valid (F : FloatText) : ∀ (t : Tag) (parent : Option Nat) (hasProps : Bool)
    (props : Map Bytes (Value Nat)) (st : DecState) (r : List Nat × Bool × Map Bytes (Value Nat) × DecState),
    getItem F true (cleaned F t) parent hasProps props st = .ok r →
    getItem F false (cleaned F t) parent hasProps props st = .ok r
  | ⟨hd, ts⟩, parent, hasProps, props, st, r, h => by
    rw [cleaned] at *
    split at h
    · rename_i hi
      rw [if_pos hi]
      rw [getItem.eq_def] at *
      simp only [if_pos hi] at *
      split at h
      · exact h
      · rename_i cls hcls
        rcases h1 : getItems F true (cleanedAll F ts) (some st.heap.length) false []
          (enterItem cls (attrValue hd.attr (str "referent")) st) with ⟨kids, own, st'⟩ | e | _
        · simp only [h1] at h
          simp only [getItems_valid F ts _ _ _ _ _ h1]
          exact h
        · simp only [h1] at h; cases h
        · simp only [h1] at h; cases h
    · rename_i hi
      rw [if_neg hi]
      split at h
      · rename_i hp
        rw [if_pos hp]
        rw [getItem.eq_def] at *
        simp only [if_neg hi, if_pos hp] at *
        split at h
        · exact h
        · rename_i p
          split at h
          · rename_i hq; simp only [hq] at h ⊢; exact h
          · rename_i hq
            simp only [hq] at h ⊢
            rcases h1 : getProps F true p (validOnly F ts) props st with x | e | _
            · simp only [h1] at h
              rw [getProps_valid F p _ _ _ _ (fun t ht => by
                unfold validOnly at ht
                simpa using (List.mem_filter.1 ht).2) h1]
              exact h
            · simp only [h1] at h; cases h
            · simp only [h1] at h; cases h
      · rename_i hp
        rw [if_neg hp]
        rw [getItem.eq_def] at *
        simp only [if_neg hi, if_neg hp] at *
        exact h
end

theorem rootTags_cleaned (F : FloatText) (refs : List (PropRef Nat)) : ∀ (ts : List Tag) (m : Map Bytes Bytes)
    (h : Heap Nat), rootTags refs (cleanedAll F ts) m h = rootTags refs ts m h
  | [], _, _ => by rw [cleanedAll]
  | t :: ts, m, h => by
    rw [cleanedAll, rootTags, rootTags, cleaned_head]
    have ih := rootTags_cleaned F refs ts
    split
    · split
      · exact ih _ _
      · exact ih _ _
    · split
      · rename_i hs
        rw [ih, cleaned_other F (by rw [hs]; decide) (by rw [hs]; decide)]
      · exact ih _ _

/-- A document without the invalid properties. -/
def cleanedRoot (F : FloatText) (t : Tag) : Tag := ⟨t.head, cleanedAll F t.tags⟩

theorem decode_cleaned (F : FloatText) (t : Tag) :
    codecDecode F true (some (cleanedRoot F t)) = codecDecode F true (some t) := by
  obtain ⟨hd, ts⟩ := t
  simp only [codecDecode, cleanedRoot, Tag.tags, getItems_cleaned, rootTags_cleaned]

theorem decode_valid (F : FloatText) (t : Tag) {r : Heap Nat × Root Nat}
    (h : codecDecode F true (some t) = .ok r) : codecDecode F false (some (cleanedRoot F t)) = .ok r := by
  rw [← decode_cleaned] at h
  obtain ⟨hd, ts⟩ := t
  simp only [codecDecode, cleanedRoot] at *
  rcases h1 : getItems F true (cleanedAll F ts) none false [] {} with x | e | _
  · simp only [Tag.tags, h1] at h
    simp only [Tag.tags, getItems_valid F ts _ _ _ _ _ h1]
    exact h
  · simp only [Tag.tags, h1] at h; cases h
  · simp only [Tag.tags, h1] at h; cases h

end Rbxlx

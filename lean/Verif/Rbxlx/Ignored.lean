import Verif.Spec.XmlIgnored
import Verif.Rbxlx.CodecDecode
/-!
# The decoder does not look at what does not count
-/
namespace Rbxlx
open Go Rbxfile Spec

theorem bare_content : ∀ t : Tag, getContent (bare t) = getContent t
  | ⟨h, ts⟩ => by rw [bare]; rfl

theorem bare_name : ∀ t : Tag, (bare t).head.startName = t.head.startName
  | ⟨h, ts⟩ => by rw [bare]; rfl

theorem bare_text : ∀ t : Tag, (bare t).head.text = t.head.text
  | ⟨h, ts⟩ => by rw [bare]; rfl

theorem bare_cdata : ∀ t : Tag, (bare t).head.cdata = t.head.cdata
  | ⟨h, ts⟩ => by rw [bare]; rfl

theorem bare_tags : ∀ t : Tag, (bare t).tags = bares t.tags
  | ⟨h, ts⟩ => by rw [bare]; rfl

/-- The value with the tag stripped. -/
def CompVal.bare : CompVal → CompVal
  | .tag t => .tag (Spec.bare t)
  | v => v

/-- The values with the tags stripped. -/
def CompVals.bare (vs : CompVals) : CompVals := vs.map fun x => (x.1, x.2.bare)

theorem bare_get : ∀ (vs : CompVals) (n : Bytes), Map.get? vs.bare n = (Map.get? vs n).map CompVal.bare
  | [], n => rfl
  | x :: vs, n => by
    have := bare_get vs n
    simp only [CompVals.bare, List.map_cons, Map.get?] at this ⊢
    split <;> simp_all

theorem bare_set : ∀ (vs : CompVals) (n : Bytes) (v : CompVal), CompVals.bare (Map.set vs n v) = Map.set vs.bare n v.bare
  | [], n, v => rfl
  | x :: vs, n, v => by
    have := bare_set vs n v
    simp only [CompVals.bare, List.map_cons, Map.set] at this ⊢
    split <;> simp_all

theorem bare_u8 (vs : CompVals) (n : Bytes) : vs.bare.u8 n = vs.u8 n := by
  simp only [CompVals.u8, bare_get]; rcases Map.get? vs n with _ | _ | _ <;> rfl
theorem bare_i16 (vs : CompVals) (n : Bytes) : vs.bare.i16 n = vs.i16 n := by
  simp only [CompVals.i16, bare_get]; rcases Map.get? vs n with _ | _ | _ <;> rfl
theorem bare_i32 (vs : CompVals) (n : Bytes) : vs.bare.i32 n = vs.i32 n := by
  simp only [CompVals.i32, bare_get]; rcases Map.get? vs n with _ | _ | _ <;> rfl
theorem bare_f32 (vs : CompVals) (n : Bytes) : vs.bare.f32 n = vs.f32 n := by
  simp only [CompVals.f32, bare_get]; rcases Map.get? vs n with _ | _ | _ <;> rfl
theorem bare_style (vs : CompVals) (n : Bytes) : vs.bare.style n = vs.style n := by
  simp only [CompVals.style, bare_get]; rcases Map.get? vs n with _ | _ | _ <;> rfl
theorem bare_weight (vs : CompVals) (n : Bytes) : vs.bare.weight n = vs.weight n := by
  simp only [CompVals.weight, bare_get]; rcases Map.get? vs n with _ | _ | _ <;> rfl
theorem bare_tag (vs : CompVals) (n : Bytes) : vs.bare.tag n = (vs.tag n).map Spec.bare := by
  simp only [CompVals.tag, bare_get]; rcases Map.get? vs n with _ | _ | _ <;> rfl

/-- The result with the tag stripped. -/
def CompRes.bare : CompRes → CompRes
  | .next v => .next (v.map CompVal.bare)
  | .stop ok v => .stop ok (v.map CompVal.bare)

theorem readComp_bare (F : FloatText) (k : Comp) (t : Tag) : readComp F k (Spec.bare t) = (readComp F k t).bare := by
  cases k <;> simp only [readComp, bare_content, intComp]
  · split <;> rfl
  · split <;> rfl
  · split <;> rfl
  · cases F.parse32 (getContent t) <;> rfl
  · split <;> rfl
  · split <;> rfl
  · rfl

theorem put_bare (vs : CompVals) (n : Bytes) (o : Option CompVal) : (vs.put n o).bare = vs.bare.put n (o.map CompVal.bare) := by
  cases o with
  | none => rfl
  | some v => exact bare_set vs n v

theorem getFromLoop_bare (F : FloatText) (c : List (Bytes × Comp)) : ∀ (ts : List Tag) (d : List Bytes) (vs : CompVals),
    getFromLoop F c (bares ts) d vs.bare = ((getFromLoop F c ts d vs).1, (getFromLoop F c ts d vs).2.bare)
  | [], d, vs => by rw [bares, getFromLoop, getFromLoop]
  | t :: ts, d, vs => by
    rw [bares, getFromLoop, getFromLoop, bare_name]
    rcases Map.get? c t.head.startName with _ | k
    · exact getFromLoop_bare F c ts d vs
    · simp only
      split
      · exact getFromLoop_bare F c ts d vs
      · rw [readComp_bare]
        rcases readComp F k t with v | ⟨ok, v⟩
        · simp only [CompRes.bare]
          rw [← put_bare]
          exact getFromLoop_bare F c ts _ _
        · simp only [CompRes.bare]
          rw [← put_bare]

theorem getFrom_bare (F : FloatText) (c : List (Bytes × Comp)) (t : Tag) :
    getFrom F c (Spec.bare t) = ((getFrom F c t).1, (getFrom F c t).2.bare) := by
  simp only [getFrom, bare_tags]
  exact getFromLoop_bare F c t.tags [] []

section
variable {ρ : Type}

theorem compValue_bare (F : FloatText) (discard : Bool) (comps : List (Bytes × Comp)) (zero : Value ρ) (mk : CompVals → Value ρ)
    (hmk : ∀ vs : CompVals, mk vs.bare = mk vs) (t : Tag) :
    compValue F discard comps zero mk (Spec.bare t) = compValue F discard comps zero mk t := by
  simp only [compValue, getFrom_bare, hmk]

theorem boolValue_bare (discard : Bool) (t : Tag) : boolValue discard (Spec.bare t) = boolValue discard t := by
  simp only [boolValue, bare_content]

theorem contentValue_bare (discard : Bool) (t : Tag) : contentValue discard (Spec.bare t) = contentValue discard t := by
  simp only [contentValue, bare_cdata, bare_text, bare_tags]
  rcases t.tags with _ | ⟨s, ts⟩
  · rw [bares]
  · rw [bares]
    simp only [bare_name, bare_content]

theorem pairValue_bare (F : FloatText) (discard : Bool) (n1 n2 : Bytes) (comps : List (Bytes × Comp)) (zero : Value ρ)
    (mk : CompVals → CompVals → Value ρ) (hmk : ∀ a b : CompVals, mk a.bare b.bare = mk a b) (t : Tag) :
    pairValue F discard n1 n2 comps zero mk (Spec.bare t) = pairValue F discard n1 n2 comps zero mk t := by
  simp only [pairValue, getFrom_bare, bare_tag]
  rcases (getFrom F [(n1, .tag), (n2, .tag)] t).2.tag n1 with _ | a <;>
    rcases (getFrom F [(n1, .tag), (n2, .tag)] t).2.tag n2 with _ | b <;>
    simp only [Option.map_none, Option.map_some, getFrom_bare, hmk]

theorem fontValue_bare (F : FloatText) (discard : Bool) (t : Tag) :
    fontValue (ρ := ρ) F discard (Spec.bare t) = fontValue F discard t := by
  simp only [fontValue, getFrom_bare, bare_tag, bare_weight, bare_style]
  rcases (getFrom F [(str "Family", .tag), (str "Weight", .weight), (str "Style", .style)] t).2.tag (str "Family") with _ | a <;>
    rcases (getFrom F [(str "CachedFaceId", .tag)] t).2.tag (str "CachedFaceId") with _ | b <;>
    simp only [Option.map_none, Option.map_some, contentValue_bare]
  rcases (getFrom F [(str "CachedFaceId", .tag)] t).1 <;> simp only [contentValue_bare]

theorem physValue_bare (F : FloatText) (discard : Bool) (t : Tag) :
    physValue (ρ := ρ) F discard (Spec.bare t) = physValue F discard t := by
  simp only [physValue, getFrom_bare, bare_tag, bare_f32]
  rcases (getFrom F [(str "CustomPhysics", .tag)] t).2.tag (str "CustomPhysics") with _ | a <;>
    simp only [Option.map_none, Option.map_some, boolValue_bare]

theorem getValue_bare (F : FloatText) (discard : Bool) (t : Tag) (ty : Ty) :
    getValue (ρ := ρ) F discard (Spec.bare t) ty = getValue F discard t ty := by
  cases ty <;> simp only [getValue, bare_content, boolValue_bare, contentValue_bare, fontValue_bare, physValue_bare, bare_text] <;>
    first
    | rfl
    | (rw [compValue_bare]; intro vs; simp only [bare_i32, bare_f32, bare_u8, bare_i16])
    | (rw [pairValue_bare]; intro a b; simp only [bare_f32])

theorem propValue_bare (F : FloatText) (discard : Bool) (name : Bytes) (ty : Ty) (o : Bool) (t : Tag) :
    propValue (ρ := ρ) F discard name ty o (Spec.bare t) = propValue F discard name ty o t := by
  simp only [propValue, getValue_bare, bare_content]

theorem getOptional_bare (F : FloatText) (t : Tag) (ty : Ty) :
    getOptional F (Spec.bare t) ty = (getOptional F t ty).map fun o => o.map Spec.bare := by
  simp only [getOptional, bare_tags, getFrom_bare, bare_tag]
  rcases t.tags with _ | ⟨s, ts⟩
  · rw [bares]; rfl
  · rw [bares]
    simp only
    split
    · split <;> rfl
    · rfl

/-- The property of a tag with the same name and the same content is the same. -/
theorem getProperty_bare (F : FloatText) (discard : Bool) {t t' : Tag}
    (hn : attrValue t.head.attr (str "name") = attrValue t'.head.attr (str "name")) (hb : Spec.bare t = Spec.bare t') :
    getProperty (ρ := ρ) F discard t = getProperty F discard t' := by
  have main : ∀ t : Tag, getProperty (ρ := ρ) F discard t = (match attrValue t.head.attr (str "name") with
      | none => .ok .nothing
      | some name =>
        if (getCanonType (Spec.bare t).head.startName).2 then
          match getOptional F (Spec.bare t) (getCanonType (Spec.bare t).head.startName).1 with
          | none => .ok .nothing
          | some none => .ok (.value name (.optional (getCanonType (Spec.bare t).head.startName).1 none))
          | some (some u) => propValue F discard name (getCanonType (Spec.bare t).head.startName).1 true u
        else propValue F discard name (getCanonType (Spec.bare t).head.startName).1 false (Spec.bare t)) := by
    intro t
    simp only [getProperty, bare_name, getOptional_bare, propValue_bare]
    rcases attrValue t.head.attr (str "name") with _ | name
    · rfl
    · simp only
      rcases hg : getOptional F t (getCanonType t.head.startName).1 with _ | _ | u <;>
        simp only [Option.map_none, Option.map_some, propValue_bare]
  rw [main t, main t', hn, hb]

end

end Rbxlx

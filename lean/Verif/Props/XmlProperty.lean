import Verif.Rbxlx.PropertyValue
import Verif.Props.XmlDecode
/-!
# C80: what the tag of a property means in the XML format
-/
namespace Props
open Go Rbxfile Rbxlx Spec

variable {ρ : Type}

/-- What the tag of a property says: a value, a reference to an instance, or the hash of a shared string. -/
def SaysProperty (F : FloatText) (t : Tag) : PropRes ρ → Prop
  | .value name v => attrValue t.head.attr (str "name") = some name ∧
      (-- a value
        (TypeTag t.head.startName v.type ∧ SaysValue F t v) ∨
        -- no instance
        (TypeTag t.head.startName .reference ∧ NoReference (tagContent t) ∧ v = .reference none) ∨
        -- an Optional without a value
        (∃ ty, OptionalTag t.head.startName ty ∧ t.tags = [] ∧ v = .optional ty none) ∨
        -- an Optional of a type that is not known
        (str "optional" <+: t.head.startName.map lowerLetter ∧ (∀ ty, ¬ OptionalTag t.head.startName ty) ∧ t.tags = [] ∧
          v = .optional .invalid none) ∨
        -- an Optional with a value, which can be a CFrame only
        (OptionalTag t.head.startName .cframe ∧ ∃ s p r, firstTag t.tags "CFrame" = some s ∧
          SaysValue (ρ := ρ) F s (.cframe p r) ∧ v = .optional .cframe (some (.cframe p r))))
  | .ref name ref => attrValue t.head.attr (str "name") = some name ∧ TypeTag t.head.startName .reference ∧
      ref = tagContent t ∧ ¬ NoReference ref
  | .shared name hash => attrValue t.head.attr (str "name") = some name ∧ TypeTag t.head.startName .sharedString ∧
      b64Decode (tagContent t) = some hash
  | .nothing => False

theorem toLower_eq (s : Bytes) : toLower s = s.map lowerLetter := by
  have : ∀ c : Fin 256, (fun c : Byte => if 65 ≤ c.toNat ∧ c.toNat ≤ 90 then BitVec.ofNat 8 (c.toNat + 32) else c) (BitVec.ofNat 8 c.val) =
      lowerLetter (BitVec.ofNat 8 c.val) := by decide +kernel
  unfold toLower
  apply List.map_congr_left
  intro c _
  have h := this ⟨c.toNat, c.isLt⟩
  simpa using h

theorem canonTypes_iff (n : Bytes) (ty : Ty) : Map.get? canonTypes n = some ty ↔ ∃ m ∈ tagNames ty, n = str m := by
  constructor
  · intro h
    have hm := Map.mem_of_get? h
    have : ∀ x ∈ canonTypes, x.1 ∈ (tagNames x.2).map str := by decide +kernel
    have := this _ hm
    obtain ⟨m, hm, e⟩ := List.mem_map.1 this
    exact ⟨m, hm, e.symm⟩
  · rintro ⟨m, hm, rfl⟩
    have : ∀ m ∈ tagNames ty, Map.get? canonTypes (str m) = some ty := by cases ty <;> decide +kernel
    exact this m hm

theorem tagNames_plain (ty : Ty) : ∀ m ∈ tagNames ty, (str "optional").isPrefixOf (str m) = false := by
  cases ty <;> decide +kernel

/-- C80: which types the name of a tag stands for. -/
theorem C80_type (name : Bytes) (ty : Ty) (hty : ty ≠ .invalid) :
    (TypeTag name ty ↔ getCanonType name = (ty, false)) ∧ (OptionalTag name ty ↔ getCanonType name = (ty, true)) := by
  unfold TypeTag OptionalTag getCanonType
  rw [toLower_eq]
  generalize name.map lowerLetter = s
  have hget : ∀ n : Bytes, (Map.get? canonTypes n).getD .invalid = ty ↔ ∃ m ∈ tagNames ty, n = str m := by
    intro n
    rw [← canonTypes_iff]
    cases Map.get? canonTypes n with
    | none => simp [Ne.symm hty]
    | some x => simp
  by_cases hp : (str "optional").isPrefixOf s = true
  · simp only [hp, if_true, Prod.mk.injEq, Bool.true_eq_false, and_false, and_true, iff_false, hget]
    obtain ⟨r, rfl⟩ := List.isPrefixOf_iff_prefix.1 hp
    constructor
    · rintro ⟨m, hm, e⟩
      rw [e, tagNames_plain ty m hm] at hp
      cases hp
    · have : (str "optional" ++ r).drop 8 = r := rfl
      rw [this]
      constructor
      · rintro ⟨m, hm, e⟩; exact ⟨m, hm, List.append_cancel_left e⟩
      · rintro ⟨m, hm, e⟩; exact ⟨m, hm, by rw [e]⟩
  · rw [Bool.not_eq_true] at hp
    simp only [hp, Bool.false_eq_true, if_false, Prod.mk.injEq, and_true, and_false, iff_false, hget]
    refine ⟨trivial, ?_⟩
    rintro ⟨m, hm, e⟩
    rw [e, List.isPrefixOf_iff_prefix.2 (List.prefix_append _ _)] at hp
    cases hp

theorem reference_empty (s : Bytes) : isEmptyReference s = true ↔ NoReference s := by
  simp [isEmptyReference, NoReference, or_assoc]

theorem canon_ne_optional (name : Bytes) : (getCanonType name).1 ≠ .optional := by
  have key : ∀ n : Bytes, (Map.get? canonTypes n).getD .invalid ≠ .optional := by
    intro n h
    rcases hg : Map.get? canonTypes n with _ | ty
    · rw [hg] at h; cases h
    · rw [hg] at h
      simp only [Option.getD_some] at h
      subst h
      obtain ⟨m, hm, -⟩ := (canonTypes_iff _ _).1 hg
      cases hm
  exact key _

theorem getValue_no_err (F : FloatText) (d : Bool) (t : Tag) (ty : Ty) (e : Err) : getValue (ρ := ρ) F d t ty ≠ .err e := by
  intro h
  cases ty <;> simp only [getValue, reduceCtorEq] at h
  case color3 | color3uint8 => split at h <;> cases h
  case physicalProperties =>
    obtain ⟨o, ho⟩ := physValue_ok (ρ := ρ) F d t
    rw [ho] at h
    cases h
  case font =>
    unfold fontValue at h
    simp only at h
    repeat' split at h
    all_goals cases h

theorem propValue_no_err (F : FloatText) (d : Bool) (n : Bytes) (ty : Ty) (o : Bool) (t : Tag) (e : Err) :
    propValue (ρ := ρ) F d n ty o t ≠ .err e := by
  intro h
  unfold propValue at h
  split at h
  · cases h
  · rename_i hg; exact getValue_no_err F d t ty _ hg
  · cases h
  · split at h
    · split at h <;> cases h
    · cases h
    · cases h

/-- The value in a tag, not Optional. -/
theorem propValue_iff (F : FloatText) (t : Tag) (name : Bytes) (ty : Ty) (hty : ty ≠ .optional) (r : PropRes ρ) (hr : r ≠ .nothing) :
    propValue F true name ty false t = .ok r ↔
      (∃ v : Value ρ, v.type = ty ∧ SaysValue F t v ∧ r = .value name v) ∨
      (ty = .reference ∧ NoReference (tagContent t) ∧ r = .value name (.reference none)) ∨
      (ty = .reference ∧ ¬ NoReference (tagContent t) ∧ r = .ref name (tagContent t)) ∨
      (ty = .sharedString ∧ ∃ h, b64Decode (tagContent t) = some h ∧ r = .shared name h) := by
  constructor
  · intro h
    unfold propValue at h
    rcases hg : getValue (ρ := ρ) F true t ty with (_ | v) | e | _
    · simp only [hg, Res.ok.injEq] at h; exact absurd h.symm hr
    · have hvt := getValue_type F true t ty v hg
      simp only [hg] at h
      cases v with
      | reference p =>
        have : ty = .reference := hvt.symm
        subst this
        simp only [getValue, Res.ok.injEq, Option.some.injEq] at hg
        cases hg
        simp only [content_eq, Bool.false_eq_true, if_false] at h
        by_cases hn : NoReference (tagContent t)
        · rw [if_pos ((reference_empty _).2 hn)] at h
          cases h
          exact .inr (.inl ⟨rfl, hn, rfl⟩)
        · rw [if_neg (fun h => hn ((reference_empty _).1 h))] at h
          cases h
          exact .inr (.inr (.inl ⟨rfl, hn, rfl⟩))
      | sharedString s =>
        have : ty = .sharedString := hvt.symm
        subst this
        simp only [getValue, Res.ok.injEq, content_eq, invalid, if_true] at hg
        cases h
        refine .inr (.inr (.inr ⟨rfl, s, ?_, rfl⟩))
        rcases hb : b64Decode (tagContent t) with _ | x
        · rw [hb] at hg; cases hg
        · rw [hb] at hg; cases hg; rfl
      | optional => exact absurd hvt.symm hty
      | _ =>
        simp only [Bool.false_eq_true, if_false, Res.ok.injEq] at h
        subst h
        refine .inl ⟨_, hvt, ?_, rfl⟩
        rw [← hvt] at hg
        exact (getValue_iff F t _ (by simp [Value.type]) (by simp [Value.type]) (by simp [Value.type])).1 hg
    · simp only [hg] at h; cases h
    · simp only [hg] at h; cases h
  · rintro (⟨v, rfl, hv, rfl⟩ | ⟨rfl, h, rfl⟩ | ⟨rfl, h, rfl⟩ | ⟨rfl, s, h, rfl⟩)
    · have h1 : v.type ≠ .sharedString := by rintro h; cases v <;> first | cases h; done | exact hv
      have h2 : v.type ≠ .reference := by rintro h; cases v <;> first | cases h; done | exact hv
      have h3 : v.type ≠ .optional := by rintro h; cases v <;> first | cases h; done | exact hv
      unfold propValue
      rw [(getValue_iff F t v h1 h2 h3).2 hv]
      cases v <;> first | rfl | exact absurd rfl h1 | exact absurd rfl h2
    · unfold propValue
      simp only [getValue, content_eq, (reference_empty _).2 h, if_true, Bool.false_eq_true, if_false]
    · unfold propValue
      have : ¬ isEmptyReference (tagContent t) = true := fun e => h ((reference_empty _).1 e)
      simp only [getValue, content_eq, this, Bool.false_eq_true, if_false]
    · unfold propValue
      simp only [getValue, content_eq, h]

theorem optional_prefix (name : Bytes) : (getCanonType name).2 = true ↔ str "optional" <+: name.map lowerLetter := by
  unfold getCanonType
  simp only [toLower_eq]
  exact List.isPrefixOf_iff_prefix

/-- C80: a property is read from a tag exactly if the tag says it (when invalid properties are discarded). -/
theorem C80_reads (F : FloatText) (t : Tag) (r : PropRes ρ) (hr : r ≠ .nothing) :
    getProperty F true t = .ok r ↔ SaysProperty F t r := by
  have hinv : ∀ {n ty}, TypeTag n ty → ty ≠ .invalid := by rintro n ty ⟨m, hm, -⟩ rfl; cases hm
  have hinv' : ∀ {n ty}, OptionalTag n ty → ty ≠ .invalid := by rintro n ty ⟨m, hm, -⟩ rfl; cases hm
  have htag : ∀ {ty}, TypeTag t.head.startName ty → getCanonType t.head.startName = (ty, false) :=
    fun h => (C80_type _ _ (hinv h)).1.1 h
  have hopt : ∀ {ty}, OptionalTag t.head.startName ty → getCanonType t.head.startName = (ty, true) :=
    fun h => (C80_type _ _ (hinv' h)).2.1 h
  have hno := canon_ne_optional t.head.startName
  have hpre := optional_prefix t.head.startName
  unfold getProperty
  rcases ha : attrValue t.head.attr (str "name") with _ | name
  · simp only [Res.ok.injEq]
    constructor
    · intro h; exact absurd h.symm hr
    · intro h
      cases r <;> simp only [SaysProperty, ha, reduceCtorEq, false_and] at h
  · rcases hc : getCanonType t.head.startName with ⟨ty, o⟩
    rw [hc] at htag hopt hno hpre
    simp only at hno hpre
    simp only
    cases o with
    | false =>
      simp only [Bool.false_eq_true, if_false]
      rw [propValue_iff F t name ty hno r hr]
      have hT : ty ≠ .invalid → TypeTag t.head.startName ty := fun h => (C80_type _ _ h).1.2 hc
      have hO : ∀ ty', ¬ OptionalTag t.head.startName ty' := fun ty' h => by cases hopt h
      have hP : ¬ str "optional" <+: t.head.startName.map lowerLetter := fun h => by cases hpre.2 h
      have hV : ∀ v : Value ρ, SaysValue F t v → v.type ≠ .invalid := by intro v hv; cases v <;> simp [Value.type]
      constructor
      · rintro (⟨v, rfl, hv, rfl⟩ | ⟨rfl, h, rfl⟩ | ⟨rfl, h, rfl⟩ | ⟨rfl, s, h, rfl⟩)
        · exact ⟨ha, .inl ⟨hT (hV v hv), hv⟩⟩
        · exact ⟨ha, .inr (.inl ⟨hT nofun, h, rfl⟩)⟩
        · exact ⟨ha, hT nofun, rfl, h⟩
        · exact ⟨ha, hT nofun, h⟩
      · intro h
        cases r with
        | nothing => exact absurd rfl hr
        | value n v =>
          obtain ⟨h1, h2⟩ := h
          rw [ha] at h1
          cases h1
          rcases h2 with ⟨h3, h4⟩ | ⟨h3, h4, rfl⟩ | ⟨ty', h3, -⟩ | ⟨h3, -⟩ | ⟨h3, -⟩
          · have := htag h3
            simp only [Prod.mk.injEq, and_true] at this
            exact .inl ⟨v, this.symm, h4, rfl⟩
          · have := htag h3
            simp only [Prod.mk.injEq, and_true] at this
            exact .inr (.inl ⟨this, h4, rfl⟩)
          · exact absurd h3 (hO _)
          · exact absurd h3 hP
          · exact absurd h3 (hO _)
        | ref n x =>
          obtain ⟨h1, h2, rfl, h3⟩ := h
          rw [ha] at h1
          cases h1
          have := htag h2
          simp only [Prod.mk.injEq, and_true] at this
          exact .inr (.inr (.inl ⟨this, h3, rfl⟩))
        | shared n x =>
          obtain ⟨h1, h2, h3⟩ := h
          rw [ha] at h1
          cases h1
          have := htag h2
          simp only [Prod.mk.injEq, and_true] at this
          exact .inr (.inr (.inr ⟨this, x, h3, rfl⟩))
    | true =>
      simp only [if_true]
      have hT : ∀ ty', ¬ TypeTag t.head.startName ty' := fun ty' h => by cases htag h
      have hO : ty ≠ .invalid → OptionalTag t.head.startName ty := fun h => (C80_type _ _ h).2.2 hc
      have hP : str "optional" <+: t.head.startName.map lowerLetter := hpre.1 rfl
      have hO' : ∀ ty', OptionalTag t.head.startName ty' → ty = ty' := fun ty' h => by
        have := hopt h
        simp only [Prod.mk.injEq, and_true] at this
        exact this
      have k1 : Map.get? [(str "CFrame", Comp.tag)] (str "CFrame") = some .tag := by decide +kernel
      obtain ⟨ok, vs, g1, g2, g3⟩ := getFrom_plain F (c := [(str "CFrame", Comp.tag)]) (by simp) (by simp) t
      simp only [AllThere, List.forall_mem_cons, List.not_mem_nil, false_implies, implies_true, and_true] at g3
      rw [← firstTag_eq] at g3
      -- what the specification says for a tag of an Optional type
      have hsay : SaysProperty F t r ↔ ∃ v, r = .value name v ∧
          ((t.tags = [] ∧ v = .optional ty none) ∨ (ty = .cframe ∧ ∃ s p q, firstTag t.tags "CFrame" = some s ∧
            SaysValue (ρ := ρ) F s (.cframe p q) ∧ v = .optional .cframe (some (.cframe p q)))) := by
        constructor
        · intro h
          cases r with
          | nothing => exact absurd rfl hr
          | value n v =>
            obtain ⟨h1, h2⟩ := h
            rw [ha] at h1
            cases h1
            refine ⟨v, rfl, ?_⟩
            rcases h2 with ⟨h3, -⟩ | ⟨h3, -⟩ | ⟨ty', h3, h4, rfl⟩ | ⟨-, h3, h4, rfl⟩ | ⟨h3, h4⟩
            · exact absurd h3 (hT _)
            · exact absurd h3 (hT _)
            · rw [hO' _ h3]; exact .inl ⟨h4, rfl⟩
            · have : ty = .invalid := by
                by_cases h : ty = .invalid
                · exact h
                · exact absurd (hO h) (h3 _)
              rw [this]; exact .inl ⟨h4, rfl⟩
            · exact .inr ⟨hO' _ h3, h4⟩
          | ref n x => exact absurd h.2.1 (hT _)
          | shared n x => exact absurd h.2.1 (hT _)
        · rintro ⟨v, rfl, h⟩
          refine ⟨ha, ?_⟩
          rcases h with ⟨h1, rfl⟩ | ⟨rfl, h⟩
          · by_cases h : ty = .invalid
            · subst h
              refine .inr (.inr (.inr (.inl ⟨hP, ?_, h1, rfl⟩)))
              intro ty' h'
              exact hinv' h' (hO' _ h').symm
            · exact .inr (.inr (.inl ⟨ty, hO h, h1, rfl⟩))
          · exact .inr (.inr (.inr (.inr ⟨hO nofun, h⟩)))
      rw [hsay]
      unfold getOptional
      rcases ht : t.tags with _ | ⟨s, ss⟩
      · simp only [Res.ok.injEq]
        constructor
        · rintro rfl; exact ⟨_, rfl, .inl ⟨trivial, rfl⟩⟩
        · rintro ⟨v, rfl, ⟨-, rfl⟩ | ⟨-, s, p, q, h, -⟩⟩
          · rfl
          · cases h
      · simp only [reduceCtorEq, false_and, false_or]
        by_cases hcf : ty = .cframe
        · subst hcf
          rw [← ht]
          simp only [if_true, g1, tag_of_got k1 g2, true_and]
          rcases hf : firstTag t.tags "CFrame" with _ | u
          · have : ok = false := by
              cases ok with
              | false => rfl
              | true => exact absurd hf (g3.1 rfl)
            subst this
            simp only [Bool.false_eq_true, if_false, Res.ok.injEq, reduceCtorEq, false_and, exists_false, and_false, iff_false]
            exact fun h => hr h.symm
          · have : ok = true := g3.2 (by rw [hf]; nofun)
            subst this
            simp only [if_true]
            unfold propValue
            rcases hg : getValue (ρ := ρ) F true u .cframe with (_ | v) | e | _
            · simp only [Res.ok.injEq]
              constructor
              · intro h; exact absurd h.symm hr
              · rintro ⟨v, rfl, s, p, q, h1, h2, -⟩
                cases h1
                rw [cframe_iff, hg] at h2
                cases h2
            · have hvt := getValue_type F true u .cframe v hg
              cases v <;> cases hvt
              rename_i p q
              simp only [if_true, Res.ok.injEq, Value.type]
              constructor
              · rintro rfl
                exact ⟨_, rfl, u, p, q, rfl, (cframe_iff F u p q).2 hg, rfl⟩
              · rintro ⟨v, rfl, s, p', q', h1, h2, rfl⟩
                cases h1
                rw [cframe_iff, hg] at h2
                cases h2
                rfl
            · simp only [reduceCtorEq, false_iff]
              rintro ⟨v, rfl, s, p, q, h1, h2, -⟩
              cases h1
              rw [cframe_iff, hg] at h2
              cases h2
            · simp only [reduceCtorEq, false_iff]
              rintro ⟨v, rfl, s, p, q, h1, h2, -⟩
              cases h1
              rw [cframe_iff, hg] at h2
              cases h2
        · simp only [hcf, if_false, Res.ok.injEq, false_and, and_false, exists_false, iff_false]
          exact fun h => hr h.symm

/-- C80: what a tag says is read whether or not invalid properties are discarded. -/
theorem C80_always (F : FloatText) (discard : Bool) (t : Tag) (r : PropRes ρ) (h : SaysProperty F t r) :
    getProperty F discard t = .ok r := by
  have hr : r ≠ .nothing := by rintro rfl; exact h
  have := (C80_reads F t r hr).2 h
  cases discard
  · exact C50_valid_unaffected F t r hr this
  · exact this

/-- C80: a tag says at most one thing. -/
theorem C80_one (F : FloatText) (t : Tag) (r r' : PropRes ρ) (h : SaysProperty F t r) (h' : SaysProperty F t r') : r = r' := by
  have := (C80_always F true t r h).symm.trans (C80_always F true t r' h')
  exact Res.ok.inj this

/-- C80: if the tag says nothing, it is dropped when invalid properties are discarded (or, for some fonts, the decoder
panics: see `C63_font_fails`). -/
theorem C80_nothing (F : FloatText) (t : Tag) (h : ∀ r : PropRes ρ, ¬ SaysProperty F t r) :
    getProperty (ρ := ρ) F true t = .ok .nothing ∨ getProperty (ρ := ρ) F true t = .panic := by
  rcases hg : getProperty (ρ := ρ) F true t with r | e | _
  · by_cases hr : r = .nothing
    · exact .inl (by rw [hr])
    · exact absurd ((C80_reads F t r hr).1 hg) (h r)
  · exfalso
    unfold getProperty at hg
    split at hg
    · cases hg
    · simp only at hg
      split at hg
      · split at hg
        · cases hg
        · cases hg
        · exact propValue_no_err _ _ _ _ _ _ _ hg
      · exact propValue_no_err _ _ _ _ _ _ _ hg
  · exact .inr rfl

/-! ## Cases -/

/-- A tag with text only. -/
def leafTag (name content : String) : Tag := ⟨{ startName := str name, text := str content }, []⟩

/-- A tag of a property with a CDATA section: the text is not used. -/
def cdataTag : Tag :=
  ⟨{ startName := str "ProtectedString", attr := [⟨str "name", str "Source"⟩], cdata := some (str "print(1)"), text := str "zz" }, []⟩

example (F : FloatText) : SaysProperty (ρ := ρ) F cdataTag (.value (str "Source") (.protectedString (str "print(1)"))) :=
  ⟨rfl, .inl ⟨⟨"protectedstring", .head _, by decide +kernel⟩, rfl⟩⟩

/-- C80: the content of a tag is the CDATA section, if there is one. -/
theorem C80_cdata (F : FloatText) (discard : Bool) (t : Tag) (name s : Bytes) (hn : attrValue t.head.attr (str "name") = some name)
    (hs : TypeTag t.head.startName .string) (hc : t.head.cdata = some s) :
    getProperty (ρ := ρ) F discard t = .ok (.value name (.string s)) := by
  apply C80_always
  refine ⟨hn, .inl ⟨hs, ?_⟩⟩
  show s = tagContent t
  unfold tagContent
  rw [hc]
  rfl

/-- A tag of a property of type Vector3int16, with the components in an unusual order and one of them twice. -/
def v3Tag (x : String) : Tag :=
  ⟨{ startName := str "vector3INT16", attr := [⟨str "name", str "P"⟩] },
   [leafTag "Z" "-7", leafTag "X" x, leafTag "Y" "+05", leafTag "Z" "9"]⟩

/-- C80: the order of the components does not matter, and the first of a name counts. -/
theorem C80_order (F : FloatText) (discard : Bool) : getProperty (ρ := ρ) F discard (v3Tag "300") =
    .ok (.value (str "P") (.vector3int16 300 5 (-7))) := by
  cases discard <;> rfl

/-- C80 (a quirk that the specification includes): after an integer component that is out of range, the components are
not read. -/
theorem C80_cut (F : FloatText) (discard : Bool) : getProperty (ρ := ρ) F discard (v3Tag "40000") =
    .ok (.value (str "P") (.vector3int16 32767 0 (-7))) := by
  cases discard <;> rfl

example (F : FloatText) : SaysProperty (ρ := ρ) F (v3Tag "40000") (.value (str "P") (.vector3int16 32767 0 (-7))) :=
  (C80_reads F _ _ (by simp)).1 (C80_cut F true)

/-- A tag of a UniqueId in a CDATA section. -/
def idTag : Tag :=
  ⟨{ startName := str "UniqueId", attr := [⟨str "name", str "Id"⟩], cdata := some (str "000102030405060708090a0b0c0d0e0f") }, []⟩

/-- C80 (a quirk that the specification includes): a UniqueId in a CDATA section says nothing. -/
theorem C80_uniqueId_cdata (F : FloatText) : ¬ ∃ r : PropRes ρ, SaysProperty F idTag r := by
  rintro ⟨r, h⟩
  have := C80_always F true idTag r h
  have h2 : getProperty (ρ := ρ) F true idTag = .ok .nothing := rfl
  rw [h2] at this
  cases this
  exact h

/-- A tag with a number that is not one. -/
def badTag : Tag := ⟨{ startName := str "int", attr := [⟨str "name", str "N"⟩], text := str "12a" }, []⟩

example (F : FloatText) : ∀ r : PropRes ρ, ¬ SaysProperty F badTag r := by
  intro r h
  have := C80_always F true badTag r h
  have h2 : getProperty (ρ := ρ) F true badTag = .ok .nothing := rfl
  rw [h2] at this
  cases this
  exact h

end Props

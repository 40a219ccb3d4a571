import Verif.Rbxlx.Discard
import Verif.Rbxlx.Order
import Verif.Props.XmlTreeExamples
import Mathlib.Data.List.Forall2
/-!
# C46, C50, C63, C64: type tags, invalid properties, panics of the decoder, determinism of the XML format
-/
namespace Props
open Go Rbxfile Rbxlx Spec

variable {ρ : Type} [DecidableEq ρ]

/-! ## C46: type tags -/

/-- The same letter, or the lower and the upper case of the same letter of the alphabet. -/
def SameLetter (a b : Byte) : Prop :=
  a = b ∨ (65 ≤ a.toNat ∧ a.toNat ≤ 90 ∧ b.toNat = a.toNat + 32) ∨ (65 ≤ b.toNat ∧ b.toNat ≤ 90 ∧ a.toNat = b.toNat + 32)

/-- C46: the tag written for a value is one that the decoder takes as the type of the value. Missing: BrickColor, see
`C46_brickcolor_fails`. (For an Optional value, the type of its content must be a type that can be written.) -/
theorem C46_written_tag_partial (F : FloatText) (hash : Bytes → Bytes) (ref : Bytes) (v : Value ρ) (t : Tag)
    (h : encodeValue F hash ref v = some t) (hv : v.type ≠ .brickColor) :
    (v.type ≠ .optional → getCanonType t.head.startName = (v.type, false)) ∧
    ∀ ty o, v = .optional ty o → ty ≠ .invalid → ty ≠ .optional → getCanonType t.head.startName = (ty, true) := by
  have cont : ∀ (hd : Head) (s : Bytes), (encodeContent hd s).startName = hd.startName := by
    intro hd s; unfold encodeContent; split <;> rfl
  cases v <;> simp only [encodeValue, Option.some.injEq] at h
  case brickColor => exact absurd rfl hv
  case optional ty o =>
    refine ⟨fun h => absurd rfl h, ?_⟩
    intro ty' o' e h1 h2
    cases e
    have key : t.head.startName = getCanonTag ty true := by
      cases o with
      | none => simp only [Option.some.injEq] at h; rw [← h]; rfl
      | some w => cases w <;> (simp only [Option.some.injEq] at h; rw [← h]; rfl)
    rw [key]
    cases ty <;> first | exact absurd rfl h1 | exact absurd rfl h2 | decide +kernel
  all_goals
    refine ⟨fun _ => ?_, nofun⟩
    subst h
    simp only [node, leaf, contentTag, Tag.head, Value.type, cont]
    decide +kernel

/-- C46: a BrickColor is written with the tag of an Int. -/
theorem C46_brickcolor_fails (F : FloatText) (hash : Bytes → Bytes) (ref : Bytes) (n : BitVec 32) :
    ∃ t, encodeValue (ρ := ρ) F hash ref (.brickColor n) = some t ∧ getCanonType t.head.startName = (.int, false) :=
  ⟨_, rfl, by simp only [leaf, Tag.head]; decide +kernel⟩

/-- C46: the canonical tag of a type stands for that type. -/
theorem C46_canonical (ty : Ty) (o : Bool) (h1 : ty ≠ .invalid) (h2 : ty ≠ .optional) :
    getCanonType (getCanonTag ty o) = (ty, o) := by
  cases o <;> cases ty <;> first | exact absurd rfl h1 | exact absurd rfl h2 | decide +kernel

/-- C46: tags are matched regardless of case. -/
theorem C46_case_insensitive (a b : Bytes) (h : List.Forall₂ SameLetter a b) : getCanonType a = getCanonType b := by
  have : toLower a = toLower b := by
    induction h with
    | nil => rfl
    | cons hx _ ih =>
      simp only [toLower, List.map_cons, List.cons.injEq] at ih ⊢
      refine ⟨?_, ih⟩
      rcases hx with rfl | ⟨h1, h2, h3⟩ | ⟨h1, h2, h3⟩
      · rfl
      · rw [if_pos ⟨h1, h2⟩, if_neg (by omega)]
        apply BitVec.eq_of_toNat_eq
        rw [BitVec.toNat_ofNat, h3]
        omega
      · rw [if_neg (by omega), if_pos ⟨h1, h2⟩]
        apply BitVec.eq_of_toNat_eq
        rw [BitVec.toNat_ofNat, h3]
        omega
  unfold getCanonType
  rw [this]

omit [DecidableEq ρ] in
/-- The value read from a tag for a type has this type. -/
theorem getValue_type (F : FloatText) (discard : Bool) (u : Tag) (ty : Ty) (w : Value ρ)
    (hw : getValue F discard u ty = .ok (some w)) : w.type = ty := by
  have num : ∀ {α : Type} (r : α × NumErr) (z : Value ρ) (mk : α → Value ρ), z.type = ty → (∀ n, (mk n).type = ty) →
      numValue discard r z mk = some w → w.type = ty := by
    intro α r z mk h1 h2 h
    unfold numValue invalid at h
    split at h
    · split at h <;> cases h; exact h1
    · cases h; exact h2 _
  have comp : ∀ (c : List (Bytes × Comp)) (z : Value ρ) (mk : CompVals → Value ρ), z.type = ty →
      (∀ n, (mk n).type = ty) → compValue F discard c z mk u = some w → w.type = ty := by
    intro c z mk h1 h2 h
    unfold compValue invalid at h
    simp only at h
    split at h
    · split at h <;> cases h; exact h1
    · cases h; exact h2 _
  have pair : ∀ (n1 n2 : Bytes) (c : List (Bytes × Comp)) (z : Value ρ) (mk : CompVals → CompVals → Value ρ), z.type = ty →
      (∀ n m, (mk n m).type = ty) → pairValue F discard n1 n2 c z mk u = some w → w.type = ty := by
    intro n1 n2 c z mk h1 h2 h
    have hi : invalid discard z = some w → w.type = ty := by
      unfold invalid
      intro h
      split at h <;> cases h
      exact h1
    unfold pairValue at h
    simp only at h
    split at h
    · exact hi h
    · split at h
      · split at h
        · exact hi h
        · split at h
          · exact hi h
          · cases h; exact h2 _ _
      · exact hi h
  have inv : ∀ z : Value ρ, z.type = ty → (Res.ok (invalid discard z) : Res (Option (Value ρ))) = .ok (some w) → w.type = ty := by
    unfold invalid
    intro z hz h
    split at h <;> cases h
    exact hz
  cases ty <;> simp only [getValue] at hw
  case axes | cframe | faces | udim | udim2 | vector2 | vector3 | vector2int16 | vector3int16 =>
    exact comp _ _ _ rfl (fun _ => rfl) (Res.ok.inj hw)
  case ray | rect => exact pair _ _ _ _ _ rfl (fun _ _ => rfl) (Res.ok.inj hw)
  case brickColor | int | token | int64 => exact num _ _ _ rfl (fun _ => rfl) (Res.ok.inj hw)
  case color3 | color3uint8 =>
    split at hw
    · exact num _ _ _ rfl (fun _ => rfl) (Res.ok.inj hw)
    · exact comp _ _ _ rfl (fun _ => rfl) (Res.ok.inj hw)
  case invalid | optional => cases hw
  case protectedString | string | reference => cases hw; rfl
  case bool | content =>
    simp only [Res.ok.injEq, Option.map_eq_some_iff] at hw
    obtain ⟨b, -, rfl⟩ := hw
    rfl
  case uniqueId =>
    unfold uniqueIdValue at hw
    split at hw
    · exact inv _ rfl hw
    · split at hw
      · exact inv _ rfl hw
      · repeat' split at hw
        all_goals cases hw
        rfl
  case physicalProperties =>
    unfold physValue at hw
    simp only at hw
    repeat' split at hw
    all_goals first | exact inv _ rfl hw | (cases hw; done) | (cases hw; rfl)
  case font =>
    unfold fontValue at hw
    simp only at hw
    repeat' split at hw
    all_goals first | exact inv _ rfl hw | (cases hw; done) | (cases hw; rfl)
  all_goals
    repeat' split at hw
    all_goals first | exact inv _ rfl hw | (cases hw; rfl)

/-- C46: the value of a property has the type that its tag stands for. -/
theorem C46_decoded_type (F : FloatText) (discard : Bool) (t : Tag) (name : Bytes) (v : Value ρ)
    (h : getProperty F discard t = .ok (.value name v)) :
    v.type = (if (getCanonType t.head.startName).2 then .optional else (getCanonType t.head.startName).1) ∧
    ∀ ty o, v = .optional ty o → ty = (getCanonType t.head.startName).1 := by
  have key := getValue_type (ρ := ρ) F discard
  have prop : ∀ (u : Tag) (ty : Ty) (o : Bool) (n : Bytes), propValue F discard n ty o u = .ok (.value name v) →
      v.type = (if o then .optional else ty) ∧ (∀ ty' x, v = .optional ty' x → ty' = ty) := by
    intro u ty o n hp
    unfold propValue at hp
    split at hp
    · cases hp
    · cases hp
    · cases hp
    · rename_i w hw
      have hwt := key u ty w hw
      split at hp
      · split at hp
        · simp only [Res.ok.injEq, PropRes.value.injEq] at hp
          obtain ⟨-, rfl⟩ := hp
          have : ty = .reference := hwt.symm
          cases o
          · exact ⟨hwt, by intro ty' x h; cases h⟩
          · exact ⟨rfl, by intro ty' x h; cases h; exact this.symm⟩
        · cases hp
      · cases hp
      · simp only [Res.ok.injEq, PropRes.value.injEq] at hp
        obtain ⟨-, rfl⟩ := hp
        cases o
        · refine ⟨hwt, ?_⟩
          rintro ty' x hx
          simp only [Bool.false_eq_true, if_false] at hx
          subst hx
          have : ty = .optional := hwt.symm
          subst this
          simp [getValue] at hw
        · refine ⟨rfl, ?_⟩
          rintro ty' x hx
          simp only [if_true, Value.optional.injEq] at hx
          rw [← hx.1]; exact hwt
  unfold getProperty at h
  split at h
  · cases h
  · simp only at h
    split at h
    · rename_i ho
      split at h
      · cases h
      · simp only [Res.ok.injEq, PropRes.value.injEq] at h
        obtain ⟨-, rfl⟩ := h
        rw [if_pos ho]
        exact ⟨rfl, by intro ty x e; cases e; rfl⟩
      · rw [if_pos ho]
        have := prop _ _ _ _ h
        exact ⟨this.1, this.2⟩
    · rename_i ho
      rw [if_neg ho]
      have := prop _ _ _ _ h
      exact ⟨this.1, this.2⟩

example : getCanonType (str "oPTIONALcoordinateFRAME") = (.cframe, true) := by decide +kernel

/-! ## C50: invalid properties -/

omit [DecidableEq ρ] in
/-- C50: a property that can be decoded when invalid properties are discarded is decoded to the same otherwise. -/
theorem C50_valid_unaffected (F : FloatText) (t : Tag) (r : PropRes ρ) (hr : r ≠ .nothing)
    (h : getProperty F true t = .ok r) : getProperty F false t = .ok r := getProperty_same F t hr h

/-- C50: discarding invalid properties, a document is decoded to what it would be decoded to without the tags of
invalid properties; and without these it is decoded to the same if invalid properties are not discarded. -/
theorem C50_discarded (F : FloatText) (t : Tag) :
    codecDecode F true (some t) = codecDecode F true (some (cleanedRoot F t)) ∧
    ∀ r, codecDecode F true (some t) = .ok r → codecDecode F false (some (cleanedRoot F t)) = .ok r :=
  ⟨(decode_cleaned F t).symm, fun _ h => decode_valid F t h⟩

/-- C50: if they are not discarded, an invalid property is decoded to the zero value of its type; for
PhysicalProperties and Font, to a value of the type (with the components that could be read); a SharedString is looked
up as an empty hash. Missing: Content, see `C50_content_fails`. -/
theorem C50_zero_partial (F : FloatText) (t : Tag) (name : Bytes) (ty : Ty)
    (hn : attrValue t.head.attr (str "name") = some name) (hty : getCanonType t.head.startName = (ty, false))
    (h1 : ty ≠ .invalid) (h2 : ty ≠ .optional) (h3 : ty ≠ .content)
    (h : getProperty (ρ := ρ) F true t = .ok .nothing) :
    (∃ v : Value ρ, getProperty F false t = .ok (.value name v) ∧ v.type = ty ∧
      (ty ≠ .physicalProperties → ty ≠ .font → v = zeroXml ty)) ∨
    ty = .sharedString ∧ getProperty (ρ := ρ) F false t = .ok (.shared name []) := by
  unfold getProperty at *
  simp only [hn, hty, Bool.false_eq_true, if_false] at *
  unfold propValue at *
  have hg : getValue (ρ := ρ) F true t ty = .ok none := by
    rcases hg : getValue (ρ := ρ) F true t ty with o | e | _
    · cases o with
      | none => rfl
      | some v =>
        simp only [hg] at h
        split at h
        · split at h <;> cases h
        · cases h
        · cases h
    · simp only [hg] at h; cases h
    · simp only [hg] at h; cases h
  obtain ⟨v, hv, hvt, hz⟩ := getValue_other F t ty h1 h2 h3 hg
  simp only [hv]
  cases v with
  | reference p =>
    have : ty = .reference := hvt.symm
    subst this
    simp [getValue] at hg
  | sharedString s =>
    have : ty = .sharedString := hvt.symm
    subst this
    have := hz (by decide) (by decide)
    cases this
    exact .inr ⟨rfl, rfl⟩
  | _ => exact .inl ⟨_, rfl, hvt, hz⟩

/-- C50: a Content with a text is dropped even if invalid properties are not discarded. -/
theorem C50_content_fails : getProperty (ρ := ρ) goFloat false
    ⟨{ startName := str "Content", attr := [(str "name", str "P")], text := str "x" }, []⟩ = .ok .nothing := by
  rfl

/-- A document with an invalid property and a valid one. -/
def invalidDoc : Tag := ⟨{ startName := str "roblox" }, [⟨{ startName := str "Item", attr := [(str "class", str "A")] },
  [⟨{ startName := str "Properties" }, [
    ⟨{ startName := str "int", attr := [(str "name", str "P")], text := str "x" }, []⟩,
    ⟨{ startName := str "int", attr := [(str "name", str "Q")], text := str "7" }, []⟩]⟩]⟩]⟩

example : codecDecode goFloat true (some invalidDoc) =
    .ok ([(0, { className := str "A", properties := [(str "Q", .int 7)] })], { instances := [0] }) := by decide +kernel

example : codecDecode goFloat false (some invalidDoc) =
    .ok ([(0, { className := str "A", properties := [(str "P", .int 0), (str "Q", .int 7)] })], { instances := [0] }) := by
  decide +kernel

example : cleanedRoot goFloat invalidDoc ≠ invalidDoc := by decide +kernel

/-! ## C63: no panics -/

/-- C63: decoding a document ends with a tree or an error, if in every Font tag (more precisely, in any tag) a Weight
out of range is preceded by a Family. Missing: other documents, see `C63_font_fails`. -/
theorem C63_decodes_partial (F : FloatText) (discard : Bool) (s : Bytes)
    (h : ∀ doc rest, readFrom s = .ok (some doc, rest) → AllTagsIn FontOk doc.tags) : decode F discard s ≠ .panic := by
  unfold decode
  have hp := C61_total s
  rcases hr : readFrom s with ⟨root, rest⟩ | e | _
  · obtain ⟨r, hr'⟩ := codecDecode_ok F discard root (by rintro t rfl; exact h t rest hr)
    simp only [hr']
    nofun
  · nofun
  · rw [hr] at hp; exact absurd hp (by simp)

/-- A document with a Font whose weight is out of range. -/
def fontDoc : Bytes := str ("<roblox version=\"4\"><Item class=\"A\"><Properties><Font name=\"P\">" ++
  "<Weight>40000</Weight></Font></Properties></Item></roblox>")

/-- C63: the decoder panics on a Font whose weight is out of range and that has no family before it. -/
theorem C63_font_fails : decode goFloat false fontDoc = .panic ∧ decode goFloat true fontDoc = .panic := by
  constructor <;> decide +kernel

/-! ## C64: determinism -/

/-- C64: what is written, and what references the instances get, does not depend on the order in which Go iterates
over maps, nor on the algorithm that sorts. (In maps every key is there once.) -/
theorem C64_deterministic (P : Params) (it : Iter) (srt : Sorter) (L : Layout) (h : Heap ρ) (root : Root ρ)
    (hm : root.metadata.Ok) (hp : ∀ p a, h.get? p = some a → a.properties.Ok) :
    encode { P with it := it, srt := srt } L h root = encode P L h root :=
  encode_same (P := { P with it := it, srt := srt }) (Q := P) ⟨rfl, rfl, rfl, rfl, rfl, rfl, rfl⟩ L h root hm hp

example : (∀ p a, xHeap.get? p = some a → a.properties.Ok) := by
  have h : ∀ y ∈ xHeap, (y.2.properties.map Prod.fst).Nodup := by decide +kernel
  exact fun p a ha => h _ (Map.mem_of_get? ha)

end Props

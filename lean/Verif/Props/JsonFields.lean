import Verif.Json.FieldsMain
import Verif.Json.Panics
import Verif.Props.JsonRead
/-!
# C110: the order of the fields of a JSON document does not matter
-/
namespace Props
open Go Rbxfile Spec Json

section
variable (O : Overflow) (it it' : Iter) {j j' : JVal}

/-- C110: documents that differ in the order of the fields of their objects only are converted alike, whatever the order in which Go
iterates over their maps: both panic, or both are rejected, or both yield the same instances, with the same numbers and the same
values, and the same root. -/
theorem C110_order (hs : SameJson j j') (hd : DistinctFields j) :
    (rootFrom O it j = .panic ↔ rootFrom O it' j' = .panic) ∧
    (rootFrom O it j = .ok none ↔ rootFrom O it' j' = .ok none) ∧
    (∀ h root, rootFrom O it j = .ok (some (h, root)) →
      ∃ h', rootFrom O it' j' = .ok (some (h', root)) ∧ InstancesAlike h h') ∧
    ∀ e, rootFrom O it j ≠ .err e := by
  have ha := Json.SameJson.alike hs hd
  have hok : (∃ o, rootFrom O it j = .ok o) ↔ ∃ o, rootFrom O it' j' = .ok o :=
    ⟨fun ⟨_, h⟩ => ⟨_, (root_alike (it' := it') ha h).choose_spec.1⟩, fun ⟨_, h⟩ => ⟨_, (root_alike (it' := it) ha.symm h).choose_spec.1⟩⟩
  have hpan : ∀ (it : Iter) (j : JVal), rootFrom O it j = .panic ↔ ¬ ∃ o, rootFrom O it j = .ok o := fun it j =>
    ⟨fun h ⟨o, h'⟩ => (by rw [h] at h'; cases h'), fun h => (rootFrom_noErr O it j).panic_of fun a e => h ⟨a, e⟩⟩
  refine ⟨by rw [hpan, hpan, hok], ⟨fun h => ?_, fun h => ?_⟩, fun h root hr => ?_, fun e he => rootFrom_noErr O it j e he⟩
  · obtain ⟨o, h1, h2⟩ := root_alike (it' := it') ha h
    cases h2
    exact h1
  · obtain ⟨o, h1, h2⟩ := root_alike (it' := it) ha.symm h
    cases h2
    exact h1
  · obtain ⟨o, h1, h2⟩ := root_alike (it' := it') ha hr
    cases h2 with
    | @some _ y h2 =>
      obtain ⟨h', root'⟩ := y
      obtain ⟨h3, h4⟩ := h2
      have h4 : root = root' := h4
      subst h4
      exact ⟨h', h1, h3⟩

/-- C110: the order in which Go iterates over the maps of a document does not matter. -/
theorem C110_iteration (hd : DistinctFields j) {h : Heap Nat} {root : Root Nat} (hr : rootFrom O it j = .ok (some (h, root))) :
    ∃ h', rootFrom O it' j = .ok (some (h', root)) ∧ InstancesAlike h h' :=
  (C110_order O it it' (.refl j) hd).2.2.1 h root hr

/-- C110: a single value is converted to the very same value. -/
theorem C110_value {ρ : Type} (hs : SameJson j j') (hd : DistinctFields j) (t : Ty) :
    valueFrom (ρ := ρ) O it t j = valueFrom O it' t j' :=
  valueFrom_alike O it it' (Json.SameJson.alike hs hd) t

/-- C110: two texts whose fields are in a different order are decoded alike. -/
theorem C110_text (T : Text) {b b' : Bytes} (hb : T.unmarshal b = .ok j) (hb' : T.unmarshal b' = .ok j') (hs : SameJson j j')
    (hd : DistinctFields j) :
    (decode T O it b = .panic ↔ decode T O it' b' = .panic) ∧
    (∀ e, decode T O it b = .err e ↔ decode T O it' b' = .err e) ∧
    ∀ h root, decode T O it b = .ok (h, root) → ∃ h', decode T O it' b' = .ok (h', root) ∧ InstancesAlike h h' := by
  have e : ∀ (it : Iter) (b : Bytes) (j : JVal), T.unmarshal b = .ok j → decode T O it b = match rootFrom O it j with
      | .ok (some r) => .ok r
      | .ok none => .err (.other "invalid JSON Root object")
      | .err e => .err e
      | .panic => .panic := by
    intro it b j h
    unfold decode
    rw [h, Res.ok_bind]
    rcases rootFrom O it j with (_ | _) | _ | _ <;> rfl
  obtain ⟨h1, h2, h3, h4⟩ := C110_order O it it' hs hd
  rw [e it b j hb, e it' b' j' hb']
  cases hr : rootFrom O it j with
  | panic => rw [h1.1 hr]; exact ⟨Iff.rfl, fun _ => Iff.rfl, fun _ _ h => by cases h⟩
  | err e => exact absurd hr (h4 e)
  | ok o =>
    cases o with
    | none => rw [h2.1 hr]; exact ⟨Iff.rfl, fun _ => Iff.rfl, fun _ _ h => by cases h⟩
    | some x =>
      obtain ⟨h', h5, h6⟩ := h3 x.1 x.2 hr
      rw [h5]
      refine ⟨⟨nofun, nofun⟩, fun _ => ⟨nofun, nofun⟩, fun h root e => ?_⟩
      cases e
      exact ⟨h', rfl, h6⟩

theorem distinct_obj {m : List (Bytes × JVal)} (h : (m.map Prod.fst).Nodup) (hv : ∀ x ∈ m, DistinctFields x.2) :
    DistinctFields (.obj m) := by
  intro x hx
  cases hx with
  | self => exact h
  | field hm hi => exact hv _ hm x hi

theorem distinct_arr {l : List JVal} (hv : ∀ x ∈ l, DistinctFields x) : DistinctFields (.arr l) := by
  intro x hx
  cases hx with
  | item hm hi => exact hv _ hm x hi

/-- A document with one instance. -/
def oneDoc (ps : List (Bytes × JVal)) : JVal :=
  readRoot [.obj [(str "class_name", .str (str "Part")), (str "properties", .obj ps)]]

/-- The two fields of a UDim. -/
def scaleField : Bytes × JVal := (str "scale", .num 0#64)
@[inherit_doc scaleField] def offsetField : Bytes × JVal := (str "offset", .num 0#64)
/-- A UDim, and a string. -/
def udimProp (m : List (Bytes × JVal)) : Bytes × JVal := (str "P", .obj [(str "type", .str (str "UDim")), (str "value", .obj m)])
@[inherit_doc udimProp] def nameProp : Bytes × JVal := (str "N", .obj [(str "type", .str (str "String")), (str "value", .str (str "N"))])

theorem same_oneDoc {ps ps' : List (Bytes × JVal)} (h : SameJson (.obj ps) (.obj ps')) : SameJson (oneDoc ps) (oneDoc ps') :=
  .field [_] [] _ (.item [] [] (.field [_] [] _ h))

/-- A document with two properties, one of them an object, and the document in which the fields of both are in another order. -/
example : SameJson (oneDoc [udimProp [scaleField, offsetField], nameProp]) (oneDoc [nameProp, udimProp [offsetField, scaleField]]) ∧
    DistinctFields (oneDoc [udimProp [scaleField, offsetField], nameProp]) ∧
    ∃ r, rootFrom O .id (oneDoc [udimProp [scaleField, offsetField], nameProp]) = .ok (some r) := by
  refine ⟨?_, ?_, ⟨_, rootFrom_readRoot O .id _ rfl rfl⟩⟩
  · exact .trans (same_oneDoc (.order (.swap _ _ _)))
      (same_oneDoc (.field [_] [] _ (.field [_] [] _ (.order (.swap _ _ _)))))
  · have leaf : ∀ j : JVal, (∀ m, j ≠ .obj m) → (∀ l, j ≠ .arr l) → DistinctFields j := by
      intro j h1 h2 x hx
      cases hx with
      | self => exact absurd rfl (h1 x)
      | item hm _ => exact absurd rfl (h2 _)
      | field hm _ => exact absurd rfl (h1 _)
    have two : ∀ a b : Bytes × JVal, a.1 ≠ b.1 → DistinctFields a.2 → DistinctFields b.2 → DistinctFields (.obj [a, b]) := by
      intro a b h h1 h2
      refine distinct_obj (by simp [h]) fun x hx => ?_
      rcases List.mem_cons.1 hx with rfl | hx
      · exact h1
      · rw [List.mem_singleton.1 hx]; exact h2
    refine two _ _ (by decide +kernel) (leaf _ nofun nofun) (distinct_arr fun x hx => ?_)
    rw [List.mem_singleton.1 hx]
    refine two _ _ (by decide +kernel) (leaf _ nofun nofun) (two _ _ (by decide +kernel) ?_ ?_)
    · exact two _ _ (by decide +kernel) (leaf _ nofun nofun) (two _ _ (by decide +kernel) (leaf _ nofun nofun) (leaf _ nofun nofun))
    · exact two _ _ (by decide +kernel) (leaf _ nofun nofun) (leaf _ nofun nofun)
end

end Props

import Verif.Declare.Main
import Verif.Rbxfile.ValueEq
/-!
# C53 and C54: declarations

`C` stands for Go's conversions of floating point numbers that are out of range, `it` for the order of iteration over the
map of properties, `base` for the pointer of the first instance that is created (every other pointer in the declarations is
taken to be smaller).
-/
namespace Props
open Go Rbxfile Spec Declare

section
variable (C : Conv) (it it' : Iter) (base : Nat)

/-! ## C53 -/

/-- C53: evaluating a root declaration creates exactly the declared instances, all distinct, with the declared class names,
references, children and order; the metadata has the last value declared for each key. A property that is not declared is
missing. A declared property has the value of its last declaration `q`: what the documentation says for those values
(`Documented`, texts of references being resolved by the last instance that is declared with that Ref, wherever in the
declaration it is), unless it is one of the cases that the code does not implement (see C54). -/
theorem C53_declared {ds : List Primary} {h : Heap Nat} {root : Root Nat}
    (hd : declareRoot C it base ds = .ok (h, root)) :
    (∀ k, root.metadata.get? k = lastMeta ds k) ∧
    ∃ l, Declared h (instancesOf ds) root.instances l ∧ (l.map Prod.fst).Nodup ∧ (∀ x ∈ l, base ≤ x.1) ∧
      (∀ p, (h.get? p).isSome ↔ p ∈ l.map Prod.fst) ∧
      ∀ p d, (p, d) ∈ l → ∀ inst, h.get? p = some inst → ∀ n,
        (lastProp d.properties n = none → inst.properties.get? n = none) ∧
        ∀ q, lastProp d.properties n = some q → ∀ t w, q.typ = Ty.code t → Documented (lastRef l) t q.value w →
          ¬ Refused t q.value → inst.properties.get? n = some w := by
  obtain ⟨l, ps, hb, hi, hm⟩ := buildRoot_built ds {} { next := base }
  unfold declareRoot at hd
  obtain ⟨h', he, hd⟩ := Res.bind_eq_ok.1 hd
  cases hd
  refine ⟨fun k => by rw [hm]; exact Option.or_none, l, ?_⟩
  rcases evaluated C it hb with ⟨h1, e, ev⟩ | ⟨e, -⟩
  · rw [he] at e
    cases e
    rw [hi]
    refine ⟨by simpa using ev.decl, ev.nodup, ev.above, ev.keys, ?_⟩
    intro p d hpd inst hinst n
    refine ⟨ev.absent (p, d) hpd inst hinst n, fun q hq t w ht hdoc hr => ?_⟩
    have h1 := ev.present (p, d) hpd inst hinst n q hq
    rw [ht] at h1
    have h2 := value_documented C (refs := (buildRoot ds {} { next := base }).2.refs) (by
      have : (References.at (buildRoot ds {} { next := base }).2.refs) = lastRef l := funext ev.resolves
      rw [this]; exact hdoc) hr
    rw [h2] at h1
    exact (Res.ok.inj h1).symm
  · rw [he] at e
    cases e

/-- C53: a Reference property that is declared with a text refers to the instance that is declared with that Ref, whether
that instance is declared before or after, above or below the property; with a text that no instance is declared with, the
reference is nil. -/
theorem C53_reference {ds : List Primary} {h : Heap Nat} {root : Root Nat} (hd : declareRoot C it base ds = .ok (h, root)) :
    ∃ l, Declared h (instancesOf ds) root.instances l ∧
      ∀ p d, (p, d) ∈ l → ∀ inst, h.get? p = some inst → ∀ n q, lastProp d.properties n = some q →
        q.typ = Ty.reference.code → ∀ s rest, q.value = .string s :: rest ∨ q.value = .bytes s :: rest →
        (∀ p' d', (p', d') ∈ l → d'.reference = s → s ≠ [] →
          (∀ p'' d'', (p'', d'') ∈ l → d''.reference = s → p'' = p') →
          inst.properties.get? n = some (.reference (some p'))) ∧
        (s = [] ∨ (∀ p' d', (p', d') ∈ l → d'.reference ≠ s) → inst.properties.get? n = some (.reference none)) := by
  obtain ⟨-, l, h1, h2, h3, h4, h5⟩ := C53_declared C it base hd
  refine ⟨l, h1, fun p d hpd inst hi n q hq ht s rest hv => ?_⟩
  have hdoc : inst.properties.get? n = some (.reference (lastRef l s)) := by
    rcases hv with hv | hv
    · refine (h5 p d hpd inst hi n).2 q hq .reference _ ht ?_ ?_
      · rw [hv]; exact .referenceText (.inl rfl)
      · rw [hv]; exact id
    · refine (h5 p d hpd inst hi n).2 q hq .reference _ ht ?_ ?_
      · rw [hv]; exact .referenceText (.inr rfl)
      · rw [hv]; exact id
  constructor
  · intro p' d' hp' hr hs hu
    rw [hdoc]
    unfold lastRef
    rw [if_neg hs]
    cases hl : (l.filter fun x => decide (x.2.reference = s)).getLast? with
    | none =>
      rw [List.getLast?_eq_none_iff] at hl
      have : (p', d') ∈ l.filter fun x => decide (x.2.reference = s) := List.mem_filter.2 ⟨hp', by simpa using hr⟩
      rw [hl] at this
      cases this
    | some x =>
      have hx := List.mem_filter.1 (List.mem_of_getLast? hl)
      have := hu x.1 x.2 hx.1 (by simpa using hx.2)
      simp [this]
  · intro hs
    rw [hdoc]
    unfold lastRef
    rcases hs with rfl | hs
    · simp
    · split
      · rfl
      · rw [List.filter_eq_nil_iff.2 (fun x hx => by simpa using hs x.1 x.2 hx)]
        rfl

/-- C53: the order in which the properties are evaluated makes no difference. -/
theorem C53_order (ds : List Primary) : declareRoot C it base ds = declareRoot C it' base ds := by
  obtain ⟨l, ps, hb, -, -⟩ := buildRoot_built ds {} { next := base }
  unfold declareRoot
  simp only
  rw [assignAll_order C it it' hb]

/-- C53: evaluation panics if a ColorSequence property is declared anywhere with a single value that is not a ColorSequence,
and succeeds otherwise. -/
theorem C53_returns (ds : List Primary) :
    ((∃ q, Occurs q (instancesOf ds) ∧ BadProperty q) → declareRoot C it base ds = .panic) ∧
    ((∀ q, Occurs q (instancesOf ds) → ¬ BadProperty q) → ∃ h root, declareRoot C it base ds = .ok (h, root)) := by
  obtain ⟨l, ps, hb, -, -⟩ := buildRoot_built ds {} { next := base }
  unfold declareRoot
  simp only
  constructor
  · rintro ⟨q, hq, hbad⟩
    rw [bad_panics C it hb hq hbad]
    rfl
  · intro hn
    rcases evaluated C it hb with ⟨h, e, -⟩ | ⟨-, q, hq, hbad⟩
    · rw [e]; exact ⟨h, _, rfl⟩
    · exact absurd hbad (hn q hq)

/-- C53: evaluating an instance declaration does the same as evaluating a root that contains just this declaration. -/
theorem C53_instance (d : Instance) :
    declareInstance C it base d = (declareRoot C it base [.instance d] >>= fun r => .ok (r.1, base)) ∧
    ∀ h root, declareRoot C it base [.instance d] = .ok (h, root) → root.instances = [base] := by
  have e : (build d { next := base }).1 = base := by
    cases d with
    | mk c r ps cs => rw [build]
  constructor
  · unfold declareInstance declareRoot
    simp only [buildRoot]
    rw [e]
    cases assignAll C (build d { next := base }).2.refs (it.run [] (build d { next := base }).2.props)
      (build d { next := base }).2.heap <;> rfl
  · intro h root hd
    unfold declareRoot at hd
    simp only [buildRoot] at hd
    obtain ⟨h', -, hd⟩ := Res.bind_eq_ok.1 hd
    cases hd
    simp [e]

/-- C53: an instance declaration has the last of its Refs, and its properties and children in order. -/
theorem C53_elements (c : Bytes) (l : List Element) :
    (instanceOf c l).className = c ∧ (instanceOf c l).reference = (refOf l).getD [] ∧
    (instanceOf c l).properties = propertiesOf l ∧ (instanceOf c l).children = childrenOf l := by
  rw [instanceOf_eq]
  exact ⟨rfl, rfl, rfl, rfl⟩

end

/-- A conversion for the examples. -/
def exConv : Conv := ⟨⟨fun _ _ => 0, fun _ _ => 0⟩, ⟨fun _ _ => 0, fun _ _ => 0⟩⟩

/-- A Model with two parts that refer to each other, one of them before the other is declared; the second declaration of
"Size" wins. -/
def exDecl : List Primary := [
  .metadata (str "k") (str "v"),
  .instance (instanceOf (str "Model") [.ref (str "m"),
    .property ⟨str "PrimaryPart", Ty.reference.code, [.string (str "b")]⟩,
    .instance (instanceOf (str "Part") [.ref (str "a"), .property ⟨str "Size", Ty.vector3.code, [.int .int 1, .int .int 2, .f64 0]⟩,
      .property ⟨str "Other", Ty.reference.code, [.bytes (str "b")]⟩,
      .property ⟨str "Size", Ty.vector3.code, [.int .int 4, .int .uint8 2, .f32 0]⟩]),
    .instance (instanceOf (str "Part") [.ref (str "b"), .property ⟨str "Up", Ty.reference.code, [.string (str "m")]⟩,
      .property ⟨str "None", Ty.reference.code, [.string (str "zzz")]⟩])])]

example : declareRoot exConv Iter.rev 7 exDecl = .ok (
    [(7, { className := str "Model", reference := str "m", properties := [(str "PrimaryPart", .reference (some 9))], children := [8, 9] }),
     (8, { className := str "Part", reference := str "a",
           properties := [(str "Size", .vector3 ⟨0x40800000, 0x40000000, 0⟩), (str "Other", .reference (some 9))] }),
     (9, { className := str "Part", reference := str "b",
           properties := [(str "Up", .reference (some 7)), (str "None", .reference none)] })],
    { instances := [7], metadata := [(str "k", str "v")] }) := by decide +kernel

example : ∀ q, Occurs q (instancesOf exDecl) → ¬ BadProperty q := fun q hq hb => by
  have h1 := (C53_returns exConv Iter.rev 7 exDecl).1 ⟨q, hq, hb⟩
  have h2 : declareRoot exConv Iter.rev 7 exDecl ≠ .panic := by decide +kernel
  exact h2 h1

example : ∃ q, Occurs q (instancesOf [.instance (instanceOf (str "A") [.instance (instanceOf (str "B")
    [.property ⟨str "P", Ty.colorSequence.code, [.int .int 1]⟩])])]) ∧ BadProperty q :=
  ⟨_, .deeper (List.mem_singleton.2 rfl) (.here (List.mem_singleton.2 rfl) (List.mem_singleton.2 rfl)), rfl, _, rfl, nofun⟩

/-! ## C54 -/

section
variable {ρ : Type} (C : Conv) (refs : References ρ)

/-- C54 (partial): whatever a property of type `t` is declared with, its value has the type `t`, except that strings of
the types BinaryString, ProtectedString and Content, and all numbers of the type Double, come out as other types (see
`C54_strings_fails`, `C54_double_fails`). -/
theorem C54_type_partial {t : Byte} {v : List (GoVal ρ)} {w : Value ρ} (h : value C t refs v = .ok (some w))
    (hm : ¬ Mistyped (dty t) v) : w.type.code = t :=
  value_type C h hm

/-- C54 (partial): the values that the documentation lists for a type yield the value that it says, with the components in
their places, except for the cases that the code does not implement (`Refused`; see the theorems `C54_…_fails`). -/
theorem C54_documented_partial {t : Ty} {v : List (GoVal ρ)} {w : Value ρ} (hd : Documented refs.at t v w)
    (hr : ¬ Refused t v) : value C t.code refs v = .ok (some w) :=
  value_documented C hd hr

/-- C54: a value of the type of the property is kept as it is, whatever follows. -/
theorem C54_same {w : Value ρ} (h1 : w.type ≠ .optional) (h2 : w.type ≠ .uniqueId) (h3 : w.type ≠ .font)
    (l : List (GoVal ρ)) : value C w.type.code refs (.value w :: l) = .ok (some w) := by
  simp only [value, dty_of_code h1 h2 h3, assert_same h1 h2 h3]

/-- C54: without values, the property has the zero value of its type. -/
theorem C54_none (t : Byte) : value C t refs ([] : List (GoVal ρ)) = .ok (newValue t) := rfl

/-- C54: with a number of values that the type does not allow, the property has the zero value of its type. -/
theorem C54_count {t : Ty} {n : List Nat} (ht : (t, n) ∈ [(Ty.udim, [2]), (.udim2, [2, 4]), (.ray, [2, 6]), (.faces, [6]),
      (.axes, [3]), (.color3, [3]), (.vector2, [2]), (.vector3, [3]), (.cframe, [10, 12]), (.vector3int16, [3]),
      (.vector2int16, [2]), (.numberRange, [2]), (.rect, [2, 4]), (.physicalProperties, [3, 5]), (.color3uint8, [3])])
    {v : List (GoVal ρ)} (hl : v.length ∉ n) (hv : ∀ w l, v = .value w :: l → w.type ≠ t) :
    value C t.code refs v = .ok (newValue t.code) := by
  cases v with
  | nil => rfl
  | cons a l =>
    have hne : t ≠ .optional ∧ t ≠ .uniqueId ∧ t ≠ .font := by
      refine ⟨?_, ?_, ?_⟩ <;> rintro rfl <;> simp at ht
    have ha : assertValue t a = none := by
      cases ha : assertValue t a with
      | none => rfl
      | some w =>
        obtain ⟨rfl, e⟩ := assert_type ha
        exact absurd e (hv w l rfl)
    have hc : cases C t refs (a :: l) = .ok none := by
      simp only [List.mem_cons, Prod.mk.injEq, List.not_mem_nil, or_false] at ht
      rcases ht with ⟨rfl, rfl⟩ | ⟨rfl, rfl⟩ | ⟨rfl, rfl⟩ | ⟨rfl, rfl⟩ | ⟨rfl, rfl⟩ | ⟨rfl, rfl⟩ | ⟨rfl, rfl⟩ | ⟨rfl, rfl⟩ |
        ⟨rfl, rfl⟩ | ⟨rfl, rfl⟩ | ⟨rfl, rfl⟩ | ⟨rfl, rfl⟩ | ⟨rfl, rfl⟩ | ⟨rfl, rfl⟩ | ⟨rfl, rfl⟩ <;>
      · unfold cases
        split <;> first | rfl | contradiction | (rename_i hx; cases hx; exact absurd (by simp) hl)
    simp only [value, dty_of_code hne.1 hne.2.1 hne.2.2, ha, hc]

/-- C54: evaluation never fails with an error; it panics exactly for a ColorSequence with a single value that is not a
ColorSequence itself. -/
theorem C54_panic (t : Byte) (v : List (GoVal ρ)) :
    (value C t refs v = .panic ↔ t = Ty.colorSequence.code ∧ ∃ a, v = [a] ∧ ∀ ks, a ≠ .value (.colorSequence ks)) :=
  value_panics C

/-- C54: the value is nil only for a number that is not a type. -/
theorem C54_nil {t : Byte} {v : List (GoVal ρ)} (h : value C t refs v = .ok none) : ∀ u : Ty, u ≠ .invalid → t ≠ u.code := by
  have hn : (newValue t : Option (Value ρ)) = none := by
    unfold value at h
    split at h
    · exact Res.ok.inj h
    · split at h
      · cases h
      · split at h
        · cases h
        · exact Res.ok.inj h
        · cases h
        · cases h
  rintro u hu rfl
  cases u <;> first | exact absurd rfl hu | cases hn

/-! ### What fails -/

/-- C54 fails for strings: a BinaryString, ProtectedString or Content that is declared with a string or bytes is a
ValueString. -/
theorem C54_strings_fails (s : Bytes) (l : List (GoVal ρ)) (t : Ty)
    (ht : t = .binaryString ∨ t = .protectedString ∨ t = .content) :
    value C t.code refs (.string s :: l) = .ok (some (.string s)) ∧ value C t.code refs (.bytes s :: l) = .ok (some (.string s)) := by
  rcases ht with rfl | rfl | rfl <;> exact ⟨rfl, rfl⟩

/-- C54 fails for Double: a number becomes a ValueFloat, with the precision of 32 bits. -/
theorem C54_double_fails (f : F64) (l : List (GoVal ρ)) :
    value C Ty.double.code refs (.f64 f :: l) = .ok (some (.float (f64to32 f))) := rfl

/-- C54 fails for a CFrame that is declared with a vector and nine numbers: the first entry of the matrix is 0, the others are
shifted by one, and the ninth number is ignored. -/
theorem C54_cframe_fails (p : Vector3) (a b c d e f g h i : GoVal ρ) :
    value C Ty.cframe.code refs [.value (.vector3 p), a, b, c, d, e, f, g, h, i] =
      .ok (some (.cframe p ⟨0, normFloat32 a, normFloat32 b, normFloat32 c, normFloat32 d, normFloat32 e, normFloat32 f,
        normFloat32 g, normFloat32 h⟩)) := rfl

/-- C54 fails for a Rect that is declared with two vectors: the first is used for both ends. -/
theorem C54_rect_fails (x y : Vector2) :
    value C Ty.rect.code refs [.value (.vector2 x), .value (.vector2 y)] = .ok (some (.rect x x)) := rfl

/-- C54 fails for every NumberSequence that is declared with numbers: it is empty. -/
theorem C54_numberSequence_fails {l : List (GoVal ρ)} {ks : List NumberKeypoint} (h : NumberGroups l ks) :
    value C Ty.numberSequence.code refs l = .ok (some (.numberSequence [])) := by
  cases h with
  | nil => rfl
  | cons h => unfold FloatOf at h; split at h <;> first | rfl | exact h.elim

/-- C54 fails for every ColorSequence that is declared with groups: it is empty. -/
theorem C54_colorSequence_fails {l : List (GoVal ρ)} {ks : List ColorKeypoint} (h : ColorGroups l ks ∨ ColorNumbers l ks) :
    value C Ty.colorSequence.code refs l = .ok (some (.colorSequence [])) := by
  rcases h with h | h
  · cases h with
    | nil => rfl
    | cons h => unfold FloatOf at h; split at h <;> first | rfl | exact h.elim
  · cases h with
    | nil => rfl
    | cons h => unfold FloatOf at h; split at h <;> first | rfl | exact h.elim

end

example : Documented (ρ := Nat) (fun _ => none) .udim2 [.f64 0x3FE0000000000000, .int .int (-3), .int .uint8 2, .f32 0x40200000]
    (.udim2 ⟨0x3F000000, BitVec.ofInt 32 (-3)⟩ ⟨0x40000000, 2⟩) := by
  refine .udim2Numbers ?_ ?_ ?_ ?_
  · show _ = _; decide +kernel
  · show _ = _; decide +kernel
  · show _ = _; decide +kernel
  · show _ ∧ _; decide +kernel

example : ¬ Refused (ρ := Nat) .udim2 [.f64 0x3FE0000000000000, .int .int (-3), .int .uint8 2, .f32 0x40200000] := id

example : value (ρ := Nat) exConv Ty.udim2.code [] [.f64 0x3FE0000000000000, .int .int (-3), .int .uint8 2, .f32 0x40200000] =
    .ok (some (.udim2 ⟨0x3F000000, BitVec.ofInt 32 (-3)⟩ ⟨0x40000000, 2⟩)) := by decide +kernel

example : NumberGroups (ρ := Nat) [.int .int 0, .int .int 1, .int .int 0, .int .int 1, .int .int 2, .int .int 0]
    [⟨0, 0x3F800000, 0⟩, ⟨0x3F800000, 0x40000000, 0⟩] := by
  refine .cons ?_ ?_ ?_ (.cons ?_ ?_ ?_ .nil) <;> (show _ = _; decide +kernel)

end Props

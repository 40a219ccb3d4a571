import Verif.Rbxlx.PropertyCut
/-!
# Reading a value from the tag of a property
-/
namespace Rbxlx
open Go Rbxfile Spec

variable {ρ : Type}

theorem intNames {bits : Nat} {names : List String} {c : List (Bytes × Comp)} (hb : 1 < bits)
    (hn : (c.map Prod.fst).Nodup)
    (h1 : ∀ x ∈ c, x.2.intBits = none ∨ (x.2.intBits = some bits ∧ x.1 ∈ names.map str))
    (h2 : ∀ n ∈ names, (Map.get? c (str n)).bind Comp.intBits = some bits) : IntNames bits names c where
  big := hb
  nodup := hn
  ofInt := by
    intro n k b hk hkb
    rcases h1 _ (Map.mem_of_get? hk) with h | ⟨h, hm⟩
    · simp only at h; rw [h] at hkb; cases hkb
    · simp only at h
      rw [h] at hkb
      obtain ⟨m, hm, e⟩ := List.mem_map.1 hm
      exact ⟨(Option.some.inj hkb).symm, m, hm, e.symm⟩
  toInt := by
    intro n hn
    have := h2 n hn
    rw [Option.bind_eq_some_iff] at this
    exact this

/-- Components that never end the loop. -/
theorem getFrom_plain (F : FloatText) {c : List (Bytes × Comp)} (hn : (c.map Prod.fst).Nodup)
    (hk : ∀ x ∈ c, x.2 = .f32 ∨ x.2 = .tag) (t : Tag) :
    ∃ ok vs, getFrom F c t = (ok, vs) ∧ (∀ n, Map.get? vs n = got F c t.tags n) ∧ (ok = true ↔ AllThere c t.tags) := by
  rcases getFrom_outcome F c hn t with ⟨ok, vs', h1, h2, h3, h4⟩ | ⟨pre, s, post, k, ok, v, vs', h1, h2, h3, h4, h5, h6, h7⟩
  · refine ⟨ok, vs', h1, h3, h4.trans ?_⟩
    constructor
    · intro h x hx; exact h x.1 (List.mem_map_of_mem hx)
    · intro h n hn
      obtain ⟨x, hx, rfl⟩ := List.mem_map.1 hn
      exact h x hx
  · rcases hk _ (Map.mem_of_get? h2) with h | h <;> (simp only at h; subst h; cases h4)

/-- A value without integer components. -/
theorem plain_iff {α : Type} {F : FloatText} {c : List (Bytes × Comp)} (hn : (c.map Prod.fst).Nodup)
    (hk : ∀ x ∈ c, x.2 = .f32 ∨ x.2 = .tag) (P : α → Prop) (mk : CompVals → α) (t : Tag) (v : α)
    (hP : ∀ vs, (∀ n, Map.get? vs n = got F c t.tags n) → (P v ↔ v = mk vs ∧ AllThere c t.tags)) :
    P v ↔ ∃ vs, getFrom F c t = (true, vs) ∧ v = mk vs := by
  obtain ⟨ok, vs, h1, h2, h3⟩ := getFrom_plain F hn hk t
  rw [hP vs h2, ← h3, h1]
  constructor
  · rintro ⟨rfl, rfl⟩; exact ⟨vs, rfl, rfl⟩
  · rintro ⟨vs', h, rfl⟩; cases h; exact ⟨rfl, rfl⟩

theorem compValue_some {F : FloatText} {c : List (Bytes × Comp)} {zero : Value ρ} {mk : CompVals → Value ρ} {t : Tag}
    {v : Value ρ} : compValue F true c zero mk t = some v ↔ ∃ vs, getFrom F c t = (true, vs) ∧ v = mk vs := by
  unfold compValue invalid
  rcases getFrom F c t with ⟨ok, vs⟩
  cases ok
  · simp
  · simp only [Bool.not_true, Bool.false_eq_true, if_false, Option.some.injEq, Prod.mk.injEq, true_and, exists_eq_left']
    exact eq_comm

theorem xyz_iff (F : FloatText) (t : Tag) (v : Vector3) : XyzAt F t v ↔
    ∃ vs, getFrom F xyzComps t = (true, vs) ∧ v = ⟨vs.f32 (str "X"), vs.f32 (str "Y"), vs.f32 (str "Z")⟩ := by
  refine plain_iff (by decide +kernel) (by decide +kernel) (XyzAt F t) (fun vs => ⟨vs.f32 (str "X"), vs.f32 (str "Y"), vs.f32 (str "Z")⟩) t v ?_
  intro vs hv
  unfold XyzAt
  rw [floatAt_iff (c := xyzComps) (by decide +kernel) hv, floatAt_iff (c := xyzComps) (by decide +kernel) hv,
    floatAt_iff (c := xyzComps) (by decide +kernel) hv]
  cases v
  simp only [AllThere, xyzComps, List.forall_mem_cons, List.not_mem_nil, false_implies, implies_true, and_true,
    Vector3.mk.injEq, forall_const]
  grind

theorem xy_iff (F : FloatText) (t : Tag) (v : Vector2) : XyAt F t v ↔
    ∃ vs, getFrom F xyComps t = (true, vs) ∧ v = ⟨vs.f32 (str "X"), vs.f32 (str "Y")⟩ := by
  refine plain_iff (by decide +kernel) (by decide +kernel) (XyAt F t) (fun vs => ⟨vs.f32 (str "X"), vs.f32 (str "Y")⟩) t v ?_
  intro vs hv
  unfold XyAt
  rw [floatAt_iff (c := xyComps) (by decide +kernel) hv, floatAt_iff (c := xyComps) (by decide +kernel) hv]
  cases v
  simp only [AllThere, xyComps, List.forall_mem_cons, List.not_mem_nil, false_implies, implies_true, and_true,
    Vector2.mk.injEq, forall_const]
  grind

theorem cframe_iff (F : FloatText) (t : Tag) (p : Vector3) (r : Matrix) : SaysValue (ρ := ρ) F t (.cframe p r) ↔
    getValue F true t .cframe = .ok (some (.cframe p r : Value ρ)) := by
  simp only [getValue, Res.ok.injEq, compValue_some]
  refine plain_iff (by decide +kernel) (by decide +kernel) (SaysValue (ρ := ρ) F t) _ t _ ?_
  intro vs hv
  have fl := fun (n : String) (h : Map.get? cframeComps (str n) = some .f32) =>
    floatAt_iff (cut := false) (n := n) h hv
  simp only [SaysValue, XyzAt]
  rw [fl "X" (by decide +kernel), fl "Y" (by decide +kernel), fl "Z" (by decide +kernel), fl "R00" (by decide +kernel),
    fl "R01" (by decide +kernel), fl "R02" (by decide +kernel), fl "R10" (by decide +kernel), fl "R11" (by decide +kernel),
    fl "R12" (by decide +kernel), fl "R20" (by decide +kernel), fl "R21" (by decide +kernel), fl "R22" (by decide +kernel)]
  cases p
  cases r
  simp only [AllThere, cframeComps, List.forall_mem_cons, List.not_mem_nil, false_implies, implies_true, and_true,
    Vector3.mk.injEq, Matrix.mk.injEq, Value.cframe.injEq, forall_const]
  grind

theorem i32At_iff {F : FloatText} {c : List (Bytes × Comp)} {seen : List Tag} {cut : Bool} {vs : CompVals} {n : String}
    (hk : Map.get? c (str n) = some .i32) (hv : ∀ n, Map.get? vs n = got F c seen n) (x : BitVec 32) :
    IntAt 32 seen cut n x ↔ x = vs.i32 (str n) ∧ (∀ s, firstB seen (str n) = some s → Readable .i32 s) ∧
      (cut = false → firstB seen (str n) ≠ none) :=
  intAt_iff (mk := .i32) (get := vs.i32) (by decide) hk rfl hv (fun _ => rfl)
    (fun _ _ h => by simp only [CompVals.i32, h]) (fun _ h => by simp only [CompVals.i32, h]) x

theorem i16At_iff {F : FloatText} {c : List (Bytes × Comp)} {seen : List Tag} {cut : Bool} {vs : CompVals} {n : String}
    (hk : Map.get? c (str n) = some .i16) (hv : ∀ n, Map.get? vs n = got F c seen n) (x : BitVec 16) :
    IntAt 16 seen cut n x ↔ x = vs.i16 (str n) ∧ (∀ s, firstB seen (str n) = some s → Readable .i16 s) ∧
      (cut = false → firstB seen (str n) ≠ none) :=
  intAt_iff (mk := .i16) (get := vs.i16) (by decide) hk rfl hv (fun _ => rfl)
    (fun _ _ h => by simp only [CompVals.i16, h]) (fun _ h => by simp only [CompVals.i16, h]) x

theorem u8At_iff {F : FloatText} {c : List (Bytes × Comp)} {seen : List Tag} {cut : Bool} {vs : CompVals} {n : String}
    (hk : Map.get? c (str n) = some .u8) (hv : ∀ n, Map.get? vs n = got F c seen n) (x : BitVec 8) :
    IntAt 32 seen cut n x ↔ x = vs.u8 (str n) ∧ (∀ s, firstB seen (str n) = some s → Readable .u8 s) ∧
      (cut = false → firstB seen (str n) ≠ none) :=
  intAt_iff (mk := .u8) (get := vs.u8) (by decide) hk rfl hv (fun _ => rfl)
    (fun _ _ h => by simp only [CompVals.u8, h]) (fun _ h => by simp only [CompVals.u8, h]) x

theorem weightAt_iff {F : FloatText} {c : List (Bytes × Comp)} {seen : List Tag} {cut : Bool} {vs : CompVals} {n : String}
    (hk : Map.get? c (str n) = some .weight) (hv : ∀ n, Map.get? vs n = got F c seen n) (x : BitVec 16) :
    IntAt 16 seen cut n x ↔ x = vs.weight (str n) ∧ (∀ s, firstB seen (str n) = some s → Readable .weight s) ∧
      (cut = false → firstB seen (str n) ≠ none) :=
  intAt_iff (mk := .weight) (get := vs.weight) (by decide) hk rfl hv (fun _ => rfl)
    (fun _ _ h => by simp only [CompVals.weight, h]) (fun _ h => by simp only [CompVals.weight, h]) x

theorem readable_f32 (s : Tag) : Readable .f32 s ↔ True := ⟨fun _ => trivial, fun _ => nofun⟩
theorem readable_tag (s : Tag) : Readable .tag s ↔ True := ⟨fun _ => trivial, fun _ => nofun⟩

theorem udim_iff (F : FloatText) (t : Tag) (u : UDim) : SaysValue (ρ := ρ) F t (.udim u) ↔
    getValue F true t .udim = .ok (some (.udim u : Value ρ)) := by
  simp only [getValue, Res.ok.injEq, compValue_some]
  refine comp_iff (intNames (bits := 32) (names := ["O"]) (by decide) (by decide +kernel) (by decide +kernel) (by decide +kernel))
    (fun seen cut (_ : Value ρ) => FloatAt F seen cut "S" u.scale ∧ IntAt 32 seen cut "O" u.offset) _ t _ ?_
  intro vs seen cut hv
  rw [floatAt_iff (by decide +kernel) hv, i32At_iff (by decide +kernel) hv]
  cases u
  simp only [AllThere, AllReadable, readable_f32, List.forall_mem_cons, List.not_mem_nil, false_implies, implies_true,
    and_true, true_and, UDim.mk.injEq, Value.udim.injEq]
  grind

theorem udim2_iff (F : FloatText) (t : Tag) (x y : UDim) : SaysValue (ρ := ρ) F t (.udim2 x y) ↔
    getValue F true t .udim2 = .ok (some (.udim2 x y : Value ρ)) := by
  simp only [getValue, Res.ok.injEq, compValue_some]
  refine comp_iff (intNames (bits := 32) (names := ["XO", "YO"]) (by decide) (by decide +kernel) (by decide +kernel) (by decide +kernel))
    (fun seen cut (_ : Value ρ) => FloatAt F seen cut "XS" x.scale ∧
      IntAt 32 seen cut "XO" x.offset ∧ FloatAt F seen cut "YS" y.scale ∧ IntAt 32 seen cut "YO" y.offset) _ t _ ?_
  intro vs seen cut hv
  rw [floatAt_iff (n := "XS") (by decide +kernel) hv, i32At_iff (n := "XO") (by decide +kernel) hv,
    floatAt_iff (n := "YS") (by decide +kernel) hv, i32At_iff (n := "YO") (by decide +kernel) hv]
  cases x
  cases y
  simp only [AllThere, AllReadable, readable_f32, List.forall_mem_cons, List.not_mem_nil, false_implies, implies_true,
    and_true, true_and, UDim.mk.injEq, Value.udim2.injEq]
  grind

theorem vector2int16_iff (F : FloatText) (t : Tag) (x y : BitVec 16) : SaysValue (ρ := ρ) F t (.vector2int16 x y) ↔
    getValue F true t .vector2int16 = .ok (some (.vector2int16 x y : Value ρ)) := by
  simp only [getValue, Res.ok.injEq, compValue_some]
  refine comp_iff (intNames (bits := 16) (names := ["X", "Y"]) (by decide) (by decide +kernel) (by decide +kernel) (by decide +kernel))
    (fun seen cut (_ : Value ρ) => IntAt 16 seen cut "X" x ∧ IntAt 16 seen cut "Y" y) _ t _ ?_
  intro vs seen cut hv
  rw [i16At_iff (n := "X") (by decide +kernel) hv, i16At_iff (n := "Y") (by decide +kernel) hv]
  simp only [AllThere, AllReadable, readable_f32, List.forall_mem_cons, List.not_mem_nil, false_implies, implies_true,
    and_true, true_and, Value.vector2int16.injEq]
  grind

theorem vector3int16_iff (F : FloatText) (t : Tag) (x y z : BitVec 16) : SaysValue (ρ := ρ) F t (.vector3int16 x y z) ↔
    getValue F true t .vector3int16 = .ok (some (.vector3int16 x y z : Value ρ)) := by
  simp only [getValue, Res.ok.injEq, compValue_some]
  refine comp_iff (intNames (bits := 16) (names := ["X", "Y", "Z"]) (by decide) (by decide +kernel) (by decide +kernel) (by decide +kernel))
    (fun seen cut (_ : Value ρ) => IntAt 16 seen cut "X" x ∧ IntAt 16 seen cut "Y" y ∧ IntAt 16 seen cut "Z" z) _ t _ ?_
  intro vs seen cut hv
  rw [i16At_iff (n := "X") (by decide +kernel) hv, i16At_iff (n := "Y") (by decide +kernel) hv,
    i16At_iff (n := "Z") (by decide +kernel) hv]
  simp only [AllThere, AllReadable, readable_f32, List.forall_mem_cons, List.not_mem_nil, false_implies, implies_true,
    and_true, true_and, Value.vector3int16.injEq]
  grind

theorem vector2_iff (F : FloatText) (t : Tag) (v : Vector2) : SaysValue (ρ := ρ) F t (.vector2 v) ↔
    getValue F true t .vector2 = .ok (some (.vector2 v : Value ρ)) := by
  simp only [getValue, Res.ok.injEq, compValue_some, SaysValue, xy_iff, Value.vector2.injEq]

theorem vector3_iff (F : FloatText) (t : Tag) (v : Vector3) : SaysValue (ρ := ρ) F t (.vector3 v) ↔
    getValue F true t .vector3 = .ok (some (.vector3 v : Value ρ)) := by
  simp only [getValue, Res.ok.injEq, compValue_some, SaysValue, xyz_iff, Value.vector3.injEq]

/-- A value with a single component that is an integer. -/
theorem single_iff {α : Type} (F : FloatText) (t : Tag) (n : String) (v : α) (f : BitVec 32 → α) :
    (∃ x, IntAt 32 t.tags false n x ∧ v = f x) ↔ ∃ vs, getFrom F [(str n, .i32)] t = (true, vs) ∧ v = f (vs.i32 (str n)) := by
  have hk : Map.get? [(str n, Comp.i32)] (str n) = some .i32 := by simp [Map.get?]
  have := comp_iff (F := F) (c := [(str n, .i32)]) (intNames (bits := 32) (names := [n]) (by decide) (by simp) (by simp [Comp.intBits])
    (by simp only [List.mem_singleton, forall_eq]; rw [hk]; rfl))
    (fun seen cut v => ∃ x, IntAt 32 seen cut n x ∧ v = f x) (fun vs => f (vs.i32 (str n))) t v (by
      intro vs seen cut hv
      simp only [i32At_iff hk hv, AllThere, AllReadable, List.forall_mem_cons, List.not_mem_nil, false_implies,
        implies_true, and_true]
      constructor
      · rintro ⟨x, ⟨rfl, h1, h2⟩, h3⟩; exact ⟨h3, h1, h2⟩
      · rintro ⟨h3, h1, h2⟩; exact ⟨_, ⟨rfl, h1, h2⟩, h3⟩)
  rw [← this]
  constructor
  · rintro ⟨x, hx, rfl⟩
    rcases hf : firstTag t.tags n with _ | s
    · rw [IntAt, hf] at hx; cases hx.1
    · by_cases ho : Overflows 32 (tagContent s)
      · obtain ⟨before, after, he, hb⟩ : ∃ before after, t.tags = before ++ s :: after ∧ firstTag before n = none := by
          obtain ⟨-, a, b, e, h⟩ := List.find?_eq_some_iff_append.1 hf
          exact ⟨a, b, e, List.find?_eq_none.2 (fun x hx => by simpa using h x hx)⟩
        have hs : s.head.startName = str n := firstB_name hf
        have hfirst : firstTag (before ++ [s]) n = some s := by
          rw [firstTag_eq, firstB_append, ← firstTag_eq, hb, Option.none_or, firstB_cons, if_pos hs]
        refine ⟨before ++ [s], true, ⟨?_, before, s, after, he, rfl, n, by simp, hs, hb, ho⟩, x, ?_, rfl⟩
        · rw [if_pos rfl, List.dropLast_concat]
          simp [hb]
        · unfold IntAt at hx ⊢
          rw [hfirst]
          rw [hf] at hx
          exact hx
      · refine ⟨t.tags, false, ⟨?_, rfl⟩, x, hx, rfl⟩
        simp only [List.mem_singleton, forall_eq, Bool.false_eq_true, if_false, hf, Option.some.injEq, forall_eq']
        exact ho
  · rintro ⟨seen, cut, ⟨-, hs⟩, x, hx, rfl⟩
    refine ⟨x, ?_, rfl⟩
    cases cut with
    | false => simp only at hs; rwa [← hs]
    | true =>
      obtain ⟨before, last, after, he, rfl, m, hm, hname, hb, -⟩ := hs
      simp only [List.mem_singleton] at hm
      subst hm
      have h1 : ∀ l, firstTag (before ++ last :: l) m = some last := by
        intro l
        rw [firstTag_eq, firstB_append, ← firstTag_eq, hb, Option.none_or, firstB_cons, if_pos hname]
      unfold IntAt at hx ⊢
      rw [h1] at hx
      rw [he, h1]
      exact hx

theorem axes_iff (F : FloatText) (t : Tag) (x y z : Bool) : SaysValue (ρ := ρ) F t (.axes x y z) ↔
    getValue F true t .axes = .ok (some (.axes x y z : Value ρ)) := by
  simp only [getValue, Res.ok.injEq, compValue_some]
  have := single_iff F t "axes" (.axes x y z : Value ρ) (fun n => .axes (bit n 0) (bit n 1) (bit n 2))
  rw [← this]
  simp only [SaysValue, Value.axes.injEq, bit]

theorem faces_iff (F : FloatText) (t : Tag) (r tp bk l bt f : Bool) : SaysValue (ρ := ρ) F t (.faces r tp bk l bt f) ↔
    getValue F true t .faces = .ok (some (.faces r tp bk l bt f : Value ρ)) := by
  simp only [getValue, Res.ok.injEq, compValue_some]
  have := single_iff F t "faces" (.faces r tp bk l bt f : Value ρ)
    (fun n => .faces (bit n 0) (bit n 1) (bit n 2) (bit n 3) (bit n 4) (bit n 5))
  rw [← this]
  simp only [SaysValue, Value.faces.injEq, bit]

theorem numValue_some {α : Type} {r : α × NumErr} {zero : Value ρ} {mk : α → Value ρ} {v : Value ρ} :
    numValue true r zero mk = some v ↔ r.2 ≠ .syntax ∧ v = mk r.1 := by
  rcases r with ⟨a, _ | _ | _⟩ <;> simp [numValue, invalid, eq_comm]

theorem int_iff (F : FloatText) (t : Tag) (n : BitVec 32) : SaysValue (ρ := ρ) F t (.int n) ↔
    getValue F true t .int = .ok (some (.int n : Value ρ)) := by
  simp only [getValue, Res.ok.injEq, numValue_some, SaysValue, saysInt_iff (show 1 < 32 by decide), content_eq,
    Value.int.injEq]
  exact ⟨fun h => ⟨h.1, h.2.symm⟩, fun h => ⟨h.1, h.2.symm⟩⟩

theorem token_iff (F : FloatText) (t : Tag) (n : BitVec 32) : SaysValue (ρ := ρ) F t (.token n) ↔
    getValue F true t .token = .ok (some (.token n : Value ρ)) := by
  simp only [getValue, Res.ok.injEq, numValue_some, SaysValue, saysInt_iff (show 1 < 32 by decide), content_eq,
    Value.token.injEq]
  exact ⟨fun h => ⟨h.1, h.2.symm⟩, fun h => ⟨h.1, h.2.symm⟩⟩

theorem int64_iff (F : FloatText) (t : Tag) (n : BitVec 64) : SaysValue (ρ := ρ) F t (.int64 n) ↔
    getValue F true t .int64 = .ok (some (.int64 n : Value ρ)) := by
  simp only [getValue, Res.ok.injEq, numValue_some, SaysValue, saysInt_iff (show 1 < 64 by decide), content_eq,
    Value.int64.injEq]
  exact ⟨fun h => ⟨h.1, h.2.symm⟩, fun h => ⟨h.1, h.2.symm⟩⟩

theorem parseUint_lt (bits : Nat) (s : Bytes) (h : (parseUint bits s).2 ≠ .syntax) : (parseUint bits s).1 < 2 ^ bits := by
  obtain ⟨k, hk⟩ := parseUint_inv h
  have := Nat.two_pow_pos bits
  rw [parseUint_text hk]
  split
  · assumption
  · simp only; omega

theorem brickColor_iff (F : FloatText) (t : Tag) (n : BitVec 32) : SaysValue (ρ := ρ) F t (.brickColor n) ↔
    getValue F true t .brickColor = .ok (some (.brickColor n : Value ρ)) := by
  simp only [getValue, Res.ok.injEq, numValue_some, SaysValue, saysNat_iff, content_eq, Value.brickColor.injEq]
  constructor
  · rintro ⟨h1, h2⟩
    refine ⟨h1, ?_⟩
    rw [h2]; simp
  · rintro ⟨h1, h2⟩
    refine ⟨h1, ?_⟩
    rw [h2, BitVec.toNat_ofNat, Nat.mod_eq_of_lt (parseUint_lt 32 _ h1)]

theorem color3_iff (F : FloatText) (t : Tag) (c : Color3) : SaysValue (ρ := ρ) F t (.color3 c) ↔
    getValue F true t .color3 = .ok (some (.color3 c : Value ρ)) := by
  simp only [getValue, SaysValue, content_eq]
  by_cases h : tagContent t = []
  · simp only [h, if_true, ne_eq, not_true_eq_false, if_false, Res.ok.injEq, compValue_some]
    refine plain_iff (by decide +kernel) (by decide +kernel) (fun (_ : Value ρ) => FloatAt F t.tags false "R" c.r ∧
      FloatAt F t.tags false "G" c.g ∧ FloatAt F t.tags false "B" c.b) _ t _ ?_
    intro vs hv
    rw [floatAt_iff (n := "R") (by decide +kernel) hv, floatAt_iff (n := "G") (by decide +kernel) hv,
      floatAt_iff (n := "B") (by decide +kernel) hv]
    cases c
    simp only [AllThere, List.forall_mem_cons, List.not_mem_nil, false_implies, implies_true, and_true,
      Color3.mk.injEq, forall_const, Value.color3.injEq]
    grind
  · simp only [h, if_false, ne_eq, not_false_eq_true, if_true, Res.ok.injEq, numValue_some, saysNat_iff, Value.color3.injEq]
    cases c
    simp only [Color3.mk.injEq]
    constructor
    · rintro ⟨n, ⟨h1, rfl⟩, h2⟩; exact ⟨h1, h2⟩
    · rintro ⟨h1, h2⟩; exact ⟨_, ⟨h1, rfl⟩, h2⟩

theorem color3uint8_iff (F : FloatText) (t : Tag) (r g b : Byte) : SaysValue (ρ := ρ) F t (.color3uint8 r g b) ↔
    getValue F true t .color3uint8 = .ok (some (.color3uint8 r g b : Value ρ)) := by
  simp only [getValue, SaysValue, content_eq]
  by_cases h : tagContent t = []
  · simp only [h, if_true, ne_eq, not_true_eq_false, if_false, Res.ok.injEq, compValue_some]
    refine comp_iff (intNames (bits := 32) (names := ["R", "G", "B"]) (by decide) (by decide +kernel) (by decide +kernel) (by decide +kernel))
      (fun seen cut (_ : Value ρ) => IntAt 32 seen cut "R" r ∧ IntAt 32 seen cut "G" g ∧ IntAt 32 seen cut "B" b) _ t _ ?_
    intro vs seen cut hv
    rw [u8At_iff (n := "R") (by decide +kernel) hv, u8At_iff (n := "G") (by decide +kernel) hv,
      u8At_iff (n := "B") (by decide +kernel) hv]
    simp only [AllThere, AllReadable, List.forall_mem_cons, List.not_mem_nil, false_implies, implies_true,
      and_true, true_and, Value.color3uint8.injEq]
    grind
  · simp only [h, if_false, ne_eq, not_false_eq_true, if_true, Res.ok.injEq, numValue_some, saysNat_iff, Value.color3uint8.injEq]
    constructor
    · rintro ⟨n, ⟨h1, rfl⟩, h2⟩; exact ⟨h1, h2⟩
    · rintro ⟨h1, h2⟩; exact ⟨_, ⟨h1, rfl⟩, h2⟩

theorem tag_of_got {F : FloatText} {c : List (Bytes × Comp)} {ts : List Tag} {vs : CompVals} {n : String}
    (hk : Map.get? c (str n) = some .tag) (hv : ∀ n, Map.get? vs n = got F c ts n) :
    vs.tag (str n) = firstTag ts n := by
  rw [CompVals.tag, hv, got, hk, firstTag_eq]
  cases firstB ts (str n) <;> rfl

/-- Finding two subtags. -/
theorem pair_iff {α : Type} {F : FloatText} {n1 n2 : String} (hne : str n1 ≠ str n2) {c : List (Bytes × Comp)} {zero : Value ρ}
    {mk : CompVals → CompVals → Value ρ} {Q : Tag → α → Prop} {f : CompVals → α}
    (hQ : ∀ t x, Q t x ↔ ∃ vs, getFrom F c t = (true, vs) ∧ x = f vs) (mk' : α → α → Value ρ)
    (hmk : ∀ a b, mk a b = mk' (f a) (f b)) (t : Tag) (v : Value ρ) :
    pairValue F true (str n1) (str n2) c zero mk t = some v ↔
      ∃ a b x y, firstTag t.tags n1 = some a ∧ firstTag t.tags n2 = some b ∧ Q a x ∧ Q b y ∧ v = mk' x y := by
  have k1 : Map.get? [(str n1, Comp.tag), (str n2, Comp.tag)] (str n1) = some .tag := by simp [Map.get?]
  have k2 : Map.get? [(str n1, Comp.tag), (str n2, Comp.tag)] (str n2) = some .tag := by
    simp only [Map.get?]
    rw [if_neg hne]
    simp
  obtain ⟨ok, vs, h1, h2, h3⟩ := getFrom_plain F (c := [(str n1, Comp.tag), (str n2, Comp.tag)]) (by simp [hne])
    (by simp) t
  simp only [AllThere, List.forall_mem_cons, List.not_mem_nil, false_implies, implies_true, and_true] at h3
  rw [← firstTag_eq, ← firstTag_eq] at h3
  unfold pairValue invalid
  simp only [h1, tag_of_got k1 h2, tag_of_got k2 h2]
  cases ok with
  | false =>
    simp only [Bool.not_false, if_true]
    constructor
    · nofun
    · rintro ⟨a, b, x, y, ha, hb, -⟩
      have := h3.2 ⟨by rw [ha]; nofun, by rw [hb]; nofun⟩
      cases this
  | true =>
    obtain ⟨g1, g2⟩ := h3.1 rfl
    rcases hf1 : firstTag t.tags n1 with _ | a
    · exact absurd hf1 g1
    rcases hf2 : firstTag t.tags n2 with _ | b
    · exact absurd hf2 g2
    simp only [Bool.not_true, Bool.false_eq_true, if_false, Option.some.injEq, hQ]
    rcases ha : getFrom F c a with ⟨ok1, vs1⟩
    rcases hb : getFrom F c b with ⟨ok2, vs2⟩
    cases ok1 <;> cases ok2
    · simp [ha]
    · simp [ha]
    · simp only [Bool.not_true, Bool.false_eq_true, if_false, Bool.not_false, if_true, reduceCtorEq, false_iff]
      rintro ⟨a', b', x, y, rfl, rfl, -, ⟨vs, h, -⟩, -⟩
      rw [hb] at h
      cases h
    · simp only [Bool.not_true, Bool.false_eq_true, if_false, Option.some.injEq]
      constructor
      · rintro rfl
        exact ⟨a, b, _, _, rfl, rfl, ⟨_, ha, rfl⟩, ⟨_, hb, rfl⟩, hmk _ _⟩
      · rintro ⟨a', b', x, y, rfl, rfl, ⟨vs, h, rfl⟩, ⟨vs', h', rfl⟩, rfl⟩
        rw [ha] at h
        rw [hb] at h'
        cases h
        cases h'
        exact hmk _ _

theorem ray_iff (F : FloatText) (t : Tag) (o d : Vector3) : SaysValue (ρ := ρ) F t (.ray o d) ↔
    getValue F true t .ray = .ok (some (.ray o d : Value ρ)) := by
  simp only [getValue, Res.ok.injEq]
  rw [pair_iff (by decide +kernel) (xyz_iff F) (fun x y => .ray x y) (fun _ _ => rfl)]
  simp only [SaysValue, Value.ray.injEq]
  constructor
  · rintro ⟨a, b, h1, h2, h3, h4⟩; exact ⟨a, b, o, d, h1, h2, h3, h4, rfl, rfl⟩
  · rintro ⟨a, b, o, d, h1, h2, h3, h4, rfl, rfl⟩; exact ⟨a, b, h1, h2, h3, h4⟩

theorem rect_iff (F : FloatText) (t : Tag) (o d : Vector2) : SaysValue (ρ := ρ) F t (.rect o d) ↔
    getValue F true t .rect = .ok (some (.rect o d : Value ρ)) := by
  simp only [getValue, Res.ok.injEq]
  rw [pair_iff (by decide +kernel) (xy_iff F) (fun x y => .rect x y) (fun _ _ => rfl)]
  simp only [SaysValue, Value.rect.injEq]
  constructor
  · rintro ⟨a, b, h1, h2, h3, h4⟩; exact ⟨a, b, o, d, h1, h2, h3, h4, rfl, rfl⟩
  · rintro ⟨a, b, o, d, h1, h2, h3, h4, rfl, rfl⟩; exact ⟨a, b, h1, h2, h3, h4⟩

theorem bool_iff (t : Tag) (b : Bool) : boolValue true t = some b ↔ SaysBool (tagContent t) b := by
  unfold boolValue
  simp only [content_eq, if_true]
  by_cases h1 : tagContent t = str "false" ∨ tagContent t = str "False" ∨ tagContent t = str "FALSE"
  · rw [if_pos h1]
    cases b
    · simpa [SaysBool] using h1
    · simp only [SaysBool, Option.some.injEq, Bool.false_eq_true, false_iff, List.map_cons, List.map_nil, List.mem_cons,
        List.not_mem_nil, or_false]
      rcases h1 with h | h | h <;> rw [h] <;> decide +kernel
  · rw [if_neg h1]
    by_cases h2 : tagContent t = str "true" ∨ tagContent t = str "True" ∨ tagContent t = str "TRUE"
    · rw [if_pos h2]
      cases b
      · simpa [SaysBool] using h1
      · simpa [SaysBool] using h2
    · rw [if_neg h2]
      cases b
      · simpa [SaysBool] using h1
      · simpa [SaysBool] using h2

/-- The content that the first subtag says. -/
def subtagContent : List Tag → Option Bytes
  | s :: _ =>
    if s.head.startName = str "binary" ∨ s.head.startName = str "hash" ∨ s.head.startName = str "null" then some []
    else if s.head.startName = str "url" then some (getContent s)
    else none
  | [] => none

theorem contentValue_eq (t : Tag) : contentValue true t = if tagContent t = [] then subtagContent t.tags else none := by
  have h : ∀ b : Bytes, (if decide (b ≠ []) = true then none else subtagContent t.tags) =
      if b = [] then subtagContent t.tags else none := by
    intro b
    by_cases h : b = [] <;> simp [h]
  unfold tagContent
  rcases hcd : t.head.cdata with _ | c
  · simp only [contentValue, hcd, Option.getD_none, if_true]
    rw [← h]
    rcases t.tags with _ | ⟨s, ss⟩ <;> rfl
  · simp only [contentValue, hcd, Option.getD_some, if_true]
    rw [← h]
    rcases t.tags with _ | ⟨s, ss⟩ <;> rfl

theorem content_iff (t : Tag) (c : Bytes) : contentValue true t = some c ↔ SaysContent t c := by
  rw [contentValue_eq]
  unfold SaysContent
  by_cases hc : tagContent t = []
  · rw [if_pos hc]
    rcases ht : t.tags with _ | ⟨s, ss⟩
    · simp [subtagContent]
    · simp only [subtagContent]
      by_cases h1 : s.head.startName = str "binary" ∨ s.head.startName = str "hash" ∨ s.head.startName = str "null"
      · rw [if_pos h1]
        have h2 : s.head.startName ≠ str "url" := by
          rcases h1 with h | h | h <;> rw [h] <;> decide +kernel
        constructor
        · intro h
          cases h
          exact ⟨hc, s, ss, rfl, .inr ⟨by simpa using h1, rfl⟩⟩
        · rintro ⟨-, s', ss', e, h | h⟩
          · cases e; exact absurd h.1 h2
          · rw [h.2]
      · rw [if_neg h1]
        by_cases h2 : s.head.startName = str "url"
        · rw [if_pos h2, content_eq]
          constructor
          · intro h
            cases h
            exact ⟨hc, s, ss, rfl, .inl ⟨h2, rfl⟩⟩
          · rintro ⟨-, s', ss', e, h | h⟩
            · cases e; rw [h.2]
            · cases e; exact absurd (by simpa using h.1) h1
        · rw [if_neg h2]
          simp only [reduceCtorEq, false_iff]
          rintro ⟨-, s', ss', e, h | h⟩
          · cases e; exact h2 h.1
          · cases e; exact h1 (by simpa using h.1)
  · rw [if_neg hc]
    simp [hc]

theorem physical_iff (F : FloatText) (t : Tag) (c : Bool) (d f e fw ew : F32) :
    SaysValue (ρ := ρ) F t (.physicalProperties c d f e fw ew) ↔
    getValue F true t .physicalProperties = .ok (some (.physicalProperties c d f e fw ew : Value ρ)) := by
  have k1 : Map.get? [(str "CustomPhysics", Comp.tag)] (str "CustomPhysics") = some .tag := by decide +kernel
  obtain ⟨ok, vs, h1, h2, h3⟩ := getFrom_plain F (c := [(str "CustomPhysics", Comp.tag)]) (by simp) (by simp) t
  simp only [AllThere, List.forall_mem_cons, List.not_mem_nil, false_implies, implies_true, and_true] at h3
  rw [← firstTag_eq] at h3
  simp only [getValue, physValue, h1, tag_of_got k1 h2, SaysValue]
  rcases hf : firstTag t.tags "CustomPhysics" with _ | s
  · have : ok = false := by
      cases ok with
      | false => rfl
      | true => exact absurd hf (h3.1 rfl)
    subst this
    simp [invalid]
  · have : ok = true := h3.2 (by rw [hf]; nofun)
    subst this
    simp only [Bool.not_true, Bool.false_eq_true, if_false, Option.some.injEq, exists_eq_left']
    have hb := bool_iff s c
    rcases hbv : boolValue true s with _ | cv
    · rw [hbv] at hb
      simp only [invalid, if_true, reduceCtorEq, Res.ok.injEq, iff_false]
      rintro ⟨h, -⟩
      cases hb.2 h
    · rw [hbv] at hb
      rw [← hb]
      cases cv with
      | false =>
        simp only [Res.ok.injEq, Option.some.injEq, Value.physicalProperties.injEq]
        cases c
        · simp only [true_and, Bool.false_eq_true, if_false]
          exact ⟨fun ⟨a, b, c, d, e⟩ => ⟨a.symm, b.symm, c.symm, d.symm, e.symm⟩,
            fun ⟨a, b, c, d, e⟩ => ⟨a.symm, b.symm, c.symm, d.symm, e.symm⟩⟩
        · simp
      | true =>
        cases c with
        | false =>
          simp only [Option.some.injEq, Bool.true_eq_false, Bool.false_eq_true, if_false, false_and, false_iff]
          unfold invalid
          split <;> simp
        | true =>
          simp only [true_and, if_true]
          have := plain_iff (F := F) (c := physComps) (by decide +kernel) (by decide +kernel)
            (fun (_ : Value ρ) => FloatAt F t.tags false "Density" d ∧ FloatAt F t.tags false "Friction" f ∧
              FloatAt F t.tags false "Elasticity" e ∧ FloatAt F t.tags false "FrictionWeight" fw ∧
              FloatAt F t.tags false "ElasticityWeight" ew) (fun vs => .physicalProperties true (vs.f32 (str "Density")) (vs.f32 (str "Friction"))
                (vs.f32 (str "Elasticity")) (vs.f32 (str "FrictionWeight")) (vs.f32 (str "ElasticityWeight"))) t
                (.physicalProperties true d f e fw ew) (by
              intro vs hv
              have fl := fun (n : String) (h : Map.get? physComps (str n) = some .f32) =>
                floatAt_iff (cut := false) (n := n) h hv
              rw [fl "Density" (by decide +kernel), fl "Friction" (by decide +kernel), fl "Elasticity" (by decide +kernel),
                fl "FrictionWeight" (by decide +kernel), fl "ElasticityWeight" (by decide +kernel)]
              simp only [AllThere, physComps, List.forall_mem_cons, List.not_mem_nil, false_implies, implies_true, and_true,
                Value.physicalProperties.injEq, forall_const, true_and]
              grind)
          rw [this]
          rcases getFrom F physComps t with ⟨ok, vs⟩
          cases ok
          · simp [invalid]
          · simp only [Bool.not_true, Bool.false_eq_true, if_false, Res.ok.injEq, Option.some.injEq, Prod.mk.injEq, true_and,
              exists_eq_left']
            exact eq_comm

theorem styleAt_iff {F : FloatText} {c : List (Bytes × Comp)} {seen : List Tag} {cut : Bool} {vs : CompVals}
    (hk : Map.get? c (str "Style") = some .style) (hv : ∀ n, Map.get? vs n = got F c seen n)
    (hr : ∀ s, firstB seen (str "Style") = some s → Readable .style s) (x : Byte) :
    StyleAt seen cut x ↔ x = vs.style (str "Style") ∧ (cut = false → firstB seen (str "Style") ≠ none) := by
  unfold StyleAt
  rw [firstTag_eq, CompVals.style, hv, got, hk]
  rcases hf : firstB seen (str "Style") with _ | s
  · cases cut <;> simp
  · have := hr s hf
    simp only [Readable, content_eq] at this
    simp only [Option.bind_some, readComp, content_eq, this, if_true, CompRes.stored, ne_eq, reduceCtorEq,
      not_false_eq_true, implies_true, and_true, SaysStyle]
    unfold fontStyleFromString at this ⊢
    by_cases h1 : tagContent s = str "Normal"
    · rw [if_pos h1, h1]
      have : ¬ str "Normal" = str "Italic" := by decide +kernel
      simp [this]
    · rw [if_neg h1] at this ⊢
      by_cases h2 : tagContent s = str "Italic"
      · simp [h1, h2]
        intro h; exact absurd (h2.trans h) h1
      · rw [if_neg h2] at this
        cases this

theorem styleAt_readable {seen : List Tag} {cut : Bool} {x : Byte} (h : StyleAt seen cut x) :
    ∀ s, firstB seen (str "Style") = some s → Readable .style s := by
  intro s hs
  unfold StyleAt at h
  rw [firstTag_eq, hs] at h
  simp only [Readable, content_eq, fontStyleFromString]
  rcases h with ⟨h, -⟩ | ⟨h, -⟩
  · rw [if_pos h]
  · rw [h]; decide +kernel

/-- The components of a font. -/
def fontComps : List (Bytes × Comp) := [(str "Family", .tag), (str "Weight", .weight), (str "Style", .style)]

theorem fontComps_iff (F : FloatText) (t : Tag) (fam : Option Tag) (w : BitVec 16) (st : Byte) :
    (∃ seen cut, Seen 16 ["Weight"] t.tags seen cut ∧ (fam = firstTag seen "Family" ∧ (cut = false → fam ≠ none) ∧
      IntAt 16 seen cut "Weight" w ∧ StyleAt seen cut st)) ↔
    ∃ vs, getFrom F fontComps t = (true, vs) ∧
      (fam, w, st) = (vs.tag (str "Family"), vs.weight (str "Weight"), vs.style (str "Style")) := by
  refine comp_iff (c := fontComps) (intNames (bits := 16) (names := ["Weight"]) (by decide) (by decide +kernel) (by decide +kernel) (by decide +kernel))
    (fun seen cut (_ : Option Tag × BitVec 16 × Byte) => fam = firstTag seen "Family" ∧ (cut = false → fam ≠ none) ∧
      IntAt 16 seen cut "Weight" w ∧ StyleAt seen cut st) (fun vs => (vs.tag (str "Family"), vs.weight (str "Weight"), vs.style (str "Style"))) t _ ?_
  intro vs seen cut hv
  rw [weightAt_iff (n := "Weight") (c := fontComps) (by decide +kernel) hv,
    ← tag_of_got (n := "Family") (c := fontComps) (by decide +kernel) hv]
  have ht := tag_of_got (n := "Family") (c := fontComps) (by decide +kernel) hv
  simp only [AllThere, AllReadable, fontComps, readable_tag, List.forall_mem_cons, List.not_mem_nil, false_implies,
    implies_true, and_true, true_and, Prod.mk.injEq]
  rw [← firstTag_eq seen "Family", ← ht]
  constructor
  · rintro ⟨h1, h2, ⟨h3, h4, h5⟩, h6⟩
    have hr := styleAt_readable h6
    rw [styleAt_iff (c := fontComps) (by decide +kernel) hv hr] at h6
    exact ⟨⟨h1, h3, h6.1⟩, ⟨h4, hr⟩, fun hc => ⟨h1 ▸ h2 hc, h5 hc, h6.2 hc⟩⟩
  · rintro ⟨⟨h1, h3, h6⟩, ⟨h4, hr⟩, h7⟩
    rw [styleAt_iff (c := fontComps) (by decide +kernel) hv hr]
    exact ⟨h1, fun hc => h1 ▸ (h7 hc).1, ⟨h3, h4, fun hc => (h7 hc).2.1⟩, h6, fun hc => (h7 hc).2.2⟩

theorem font_iff (F : FloatText) (t : Tag) (fam : Bytes) (w : BitVec 16) (st : Byte) (cached : Bytes) :
    SaysValue (ρ := ρ) F t (.font fam w st cached) ↔
    getValue F true t .font = .ok (some (.font fam w st cached : Value ρ)) := by
  have h1 : SaysValue (ρ := ρ) F t (.font fam w st cached) ↔ ∃ s, (∃ vs, getFrom F fontComps t = (true, vs) ∧
      (some s, w, st) = (vs.tag (str "Family"), vs.weight (str "Weight"), vs.style (str "Style"))) ∧
      SaysContent s fam ∧ CachedAt t cached := by
    simp only [← fontComps_iff, SaysValue]
    constructor
    · rintro ⟨seen, cut, h1, ⟨s, h2, h3⟩, h4, h5, h6⟩
      exact ⟨s, ⟨seen, cut, h1, h2.symm, fun _ => by nofun, h4, h5⟩, h3, h6⟩
    · rintro ⟨s, ⟨seen, cut, h1, h2, -, h4, h5⟩, h3, h6⟩
      exact ⟨seen, cut, h1, ⟨s, h2.symm, h3⟩, h4, h5, h6⟩
  rw [h1]
  have k1 : Map.get? [(str "CachedFaceId", Comp.tag)] (str "CachedFaceId") = some .tag := by decide +kernel
  obtain ⟨ok', vs', g1, g2, g3⟩ := getFrom_plain F (c := [(str "CachedFaceId", Comp.tag)]) (by simp) (by simp) t
  simp only [AllThere, List.forall_mem_cons, List.not_mem_nil, false_implies, implies_true, and_true] at g3
  rw [← firstTag_eq] at g3
  have fc : [(str "Family", Comp.tag), (str "Weight", .weight), (str "Style", .style)] = fontComps := rfl
  simp only [getValue, fontValue, fc, invalid, if_true]
  rcases getFrom F fontComps t with ⟨ok, vs⟩
  cases ok with
  | false => simp
  | true =>
    simp only [Prod.mk.injEq, true_and, exists_eq_left', Bool.not_true, Bool.false_eq_true, if_false, g1, tag_of_got k1 g2]
    rcases hf : vs.tag (str "Family") with _ | s
    · simp
    · simp only [Option.some.injEq]
      have hs := content_iff s fam
      rcases hcv : contentValue true s with _ | fam'
      · rw [hcv] at hs
        simp only [reduceCtorEq, Res.ok.injEq, iff_false]
        rintro ⟨s', ⟨rfl, -, -⟩, h, -⟩
        cases hs.2 h
      · rw [hcv] at hs
        simp only
        have hfam : (∃ s', (s' = s ∧ w = vs.weight (str "Weight") ∧ st = vs.style (str "Style")) ∧ SaysContent s' fam ∧ CachedAt t cached) ↔
            (fam' = fam ∧ w = vs.weight (str "Weight") ∧ st = vs.style (str "Style")) ∧ CachedAt t cached := by
          constructor
          · rintro ⟨s', ⟨rfl, h2, h3⟩, h4, h5⟩
            exact ⟨⟨Option.some.inj (hs.2 h4), h2, h3⟩, h5⟩
          · rintro ⟨⟨h1, h2, h3⟩, h5⟩
            exact ⟨s, ⟨rfl, h2, h3⟩, hs.1 (by rw [h1]), h5⟩
        rw [hfam]
        unfold CachedAt
        rcases hc : firstTag t.tags "CachedFaceId" with _ | u
        · have : ok' = false := by
            cases ok' with
            | false => rfl
            | true => exact absurd hc (g3.1 rfl)
          subst this
          simp only [Res.ok.injEq, Option.some.injEq, Value.font.injEq]
          grind
        · have : ok' = true := g3.2 (by rw [hc]; nofun)
          subst this
          simp only
          have hu := content_iff u cached
          rcases hcu : contentValue true u with _ | cached'
          · rw [hcu] at hu
            simp only [reduceCtorEq, Res.ok.injEq, iff_false]
            rintro ⟨-, h⟩
            cases hu.2 h
          · rw [hcu] at hu
            rw [← hu]
            simp only [Res.ok.injEq, Option.some.injEq, Value.font.injEq]
            grind

/-! ## UniqueId -/

theorem hexDigitOf_eq (c : Byte) : hexDigitOf c = hexDigit c := by
  have : ∀ c : Fin 256, hexDigitOf (BitVec.ofNat 8 c.val) = hexDigit (BitVec.ofNat 8 c.val) := by decide +kernel
  have h := this ⟨c.toNat, c.isLt⟩
  simpa using h

theorem hexDigit_lt {c : Byte} {n : Nat} (h : hexDigit c = some n) : n < 16 := by
  unfold hexDigit at h
  split at h
  · cases h; omega
  · split at h
    · cases h; omega
    · split at h
      · cases h; omega
      · cases h

theorem foldl_none (l : Bytes) : l.foldl (fun (n : Option Nat) c => do return 16 * (← n) + (← hexDigitOf c)) none = none := by
  induction l with
  | nil => rfl
  | cons c l ih => exact ih

/-- The number that hexadecimal digits denote is the one that the decoded bytes denote. -/
theorem hex_fold : ∀ (k : Nat) (s : Bytes), s.length = 2 * k → ∀ n : Nat,
    s.foldl (fun (n : Option Nat) c => do return 16 * (← n) + (← hexDigitOf c)) (some n) =
      (hexDecode s).map fun b => b.foldl (fun n x => 256 * n + x.toNat) n
  | 0, s, h, n => by
    have : s = [] := List.length_eq_zero_iff.1 (by omega)
    subst this
    rfl
  | k + 1, s, h, n => by
    match s, h with
    | a :: b :: rest, h =>
      simp only [List.length_cons] at h
      simp only [List.foldl_cons, hexDecode, hexDigitOf_eq, Option.bind_eq_bind, Option.pure_def, Option.bind_some]
      rcases ha : hexDigit a with _ | x
      · simp only [Option.bind_none]
        have := foldl_none rest
        simp only [hexDigitOf_eq, Option.bind_eq_bind, Option.pure_def] at this
        rw [this]; rfl
      · simp only [Option.bind_some]
        rcases hb : hexDigit b with _ | y
        · simp only [Option.bind_none]
          have := foldl_none rest
          simp only [hexDigitOf_eq, Option.bind_eq_bind, Option.pure_def] at this
          rw [this]; rfl
        · simp only [Option.bind_some]
          have ih := hex_fold k rest (by omega) (16 * (16 * n + x) + y)
          simp only [hexDigitOf_eq, Option.bind_eq_bind, Option.pure_def] at ih
          rw [ih]
          cases hexDecode rest with
          | none => rfl
          | some r =>
            simp only [Option.map_some, Option.bind_some, Option.some.injEq, List.foldl_cons]
            congr 1
            have := hexDigit_lt ha
            have := hexDigit_lt hb
            rw [BitVec.toNat_ofNat]
            omega

theorem hexDecode_length : ∀ (k : Nat) (s b : Bytes), s.length = 2 * k → hexDecode s = some b → b.length = k
  | 0, s, b, h, hd => by
    have : s = [] := List.length_eq_zero_iff.1 (by omega)
    subst this
    cases hd
    rfl
  | k + 1, s, b, h, hd => by
    match s, h with
    | a :: c :: rest, h =>
      simp only [List.length_cons] at h
      simp only [hexDecode, Option.bind_eq_bind, Option.bind_eq_some_iff, Option.some.injEq] at hd
      obtain ⟨x, -, y, -, r, hr, rfl⟩ := hd
      rw [List.length_cons, hexDecode_length k rest r (by omega) hr]

theorem hexDecode_even : ∀ (s b : Bytes), hexDecode s = some b → s.length = 2 * b.length
  | [], b, h => by cases h; rfl
  | [_], b, h => by cases h
  | a :: c :: rest, b, h => by
    simp only [hexDecode, Option.bind_eq_bind, Option.bind_eq_some_iff, Option.some.injEq] at h
    obtain ⟨x, -, y, -, r, hr, rfl⟩ := h
    have := hexDecode_even rest r hr
    simp only [List.length_cons]
    omega

theorem uniqueId_iff (F : FloatText) (t : Tag) (r : BitVec 64) (ti i : BitVec 32) :
    SaysValue (ρ := ρ) F t (.uniqueId r ti i) ↔
    getValue F true t .uniqueId = .ok (some (.uniqueId r ti i : Value ρ)) := by
  simp only [getValue, Res.ok.injEq, uniqueIdValue, invalid, if_true, SaysValue]
  generalize t.head.text = s
  rcases hd : hexDecode (s.take 32) with _ | b
  · simp only [reduceCtorEq, iff_false]
    rintro ⟨n, h1, h2, -⟩
    have := hex_fold 16 (s.take 32) (by rw [List.length_take]; omega) 0
    rw [hd] at this
    rw [hexNumber, this] at h2
    cases h2
  · have he := hexDecode_even _ _ hd
    rw [List.length_take] at he
    simp only
    by_cases hl : b.length < 16
    · rw [if_pos hl]
      simp only [reduceCtorEq, iff_false]
      rintro ⟨n, h1, -⟩
      omega
    · rw [if_neg hl]
      have h16 : b.length = 16 := by omega
      have hnum := hex_fold 16 (s.take 32) (by rw [List.length_take]; omega) 0
      rw [hd, Option.map_some] at hnum
      match b, h16 with
      | [b0, b1, b2, b3, b4, b5, b6, b7, b8, b9, b10, b11, b12, b13, b14, b15], _ =>
        simp only [readBe64, readBe32, Option.some.injEq, Value.uniqueId.injEq]
        simp only [hexNumber, hnum, List.foldl_cons, List.foldl_nil, Option.some.injEq, exists_and_left, exists_eq_left']
        have hlen : 32 ≤ s.length := by omega
        simp only [hlen, true_and]
        have e : ∀ {w : Nat} (x y : BitVec w), x = y ↔ x.toNat = y.toNat := fun x y => BitVec.toNat_inj.symm
        have l0 := b0.isLt; have l1 := b1.isLt; have l2 := b2.isLt; have l3 := b3.isLt
        have l4 := b4.isLt; have l5 := b5.isLt; have l6 := b6.isLt; have l7 := b7.isLt
        have l8 := b8.isLt; have l9 := b9.isLt; have l10 := b10.isLt; have l11 := b11.isLt
        have l12 := b12.isLt; have l13 := b13.isLt; have l14 := b14.isLt; have l15 := b15.isLt
        have e1 : ∀ n : Nat, n = 256 * (256 * (256 * (256 * (256 * (256 * (256 * (256 * (256 * (256 * (256 * (256 * (256 * (256 * (256 * (256 * 0 + b0.toNat) + b1.toNat) + b2.toNat) + b3.toNat) + b4.toNat) + b5.toNat) + b6.toNat) + b7.toNat) + b8.toNat) + b9.toNat) + b10.toNat) + b11.toNat) + b12.toNat) + b13.toNat) + b14.toNat) + b15.toNat →
            BitVec.ofNat 64 (n / 2 ^ 64) = mk64 b7 b6 b5 b4 b3 b2 b1 b0 ∧ BitVec.ofNat 32 (n / 2 ^ 32) = mk32 b11 b10 b9 b8 ∧
            BitVec.ofNat 32 n = mk32 b15 b14 b13 b12 := by
          intro n hn
          rw [e, e, e, mk64_toNat, mk32_toNat, mk32_toNat, BitVec.toNat_ofNat, BitVec.toNat_ofNat, BitVec.toNat_ofNat]
          refine ⟨?_, ?_, ?_⟩ <;> omega
        obtain ⟨x1, x2, x3⟩ := e1 _ rfl
        rw [x1, x2, x3]
        exact ⟨fun ⟨a, b, c⟩ => ⟨a.symm, b.symm, c.symm⟩, fun ⟨a, b, c⟩ => ⟨a.symm, b.symm, c.symm⟩⟩

/-! ## All values -/

/-- The values that are read from a tag are those that the tag says. -/
theorem getValue_iff (F : FloatText) (t : Tag) (v : Value ρ) (h1 : v.type ≠ .sharedString) (h2 : v.type ≠ .reference)
    (h3 : v.type ≠ .optional) : getValue F true t v.type = .ok (some v) ↔ SaysValue F t v := by
  cases v
  case string s => simp only [Value.type, getValue, content_eq, SaysValue, Res.ok.injEq, Option.some.injEq, Value.string.injEq, eq_comm]
  case protectedString s =>
    simp only [Value.type, getValue, content_eq, SaysValue, Res.ok.injEq, Option.some.injEq, Value.protectedString.injEq, eq_comm]
  case binaryString s =>
    simp only [Value.type, getValue, content_eq, SaysValue, Res.ok.injEq, invalid, if_true]
    cases b64Decode (tagContent t) <;> simp
  case content s =>
    simp only [Value.type, getValue, SaysValue, Res.ok.injEq, Option.map_eq_some_iff, Value.content.injEq, exists_eq_right,
      content_iff]
  case bool b =>
    simp only [Value.type, getValue, SaysValue, Res.ok.injEq, Option.map_eq_some_iff, Value.bool.injEq, exists_eq_right,
      bool_iff]
  case int n => exact (int_iff F t n).symm
  case float f =>
    simp only [Value.type, getValue, content_eq, SaysValue, Res.ok.injEq, invalid, if_true]
    cases F.parse32 (tagContent t) <;> simp
  case double f =>
    simp only [Value.type, getValue, content_eq, SaysValue, Res.ok.injEq, invalid, if_true]
    cases F.parse64 (tagContent t) <;> simp
  case udim u => exact (udim_iff F t u).symm
  case udim2 x y => exact (udim2_iff F t x y).symm
  case ray o d => exact (ray_iff F t o d).symm
  case faces => exact (faces_iff F t _ _ _ _ _ _).symm
  case axes => exact (axes_iff F t _ _ _).symm
  case brickColor n => exact (brickColor_iff F t n).symm
  case color3 c => exact (color3_iff F t c).symm
  case vector2 v => exact (vector2_iff F t v).symm
  case vector3 v => exact (vector3_iff F t v).symm
  case cframe p r => exact (cframe_iff F t p r).symm
  case token n => exact (token_iff F t n).symm
  case reference => exact absurd rfl h2
  case vector3int16 => exact (vector3int16_iff F t _ _ _).symm
  case vector2int16 => exact (vector2int16_iff F t _ _).symm
  case numberSequence ks =>
    simp only [Value.type, getValue, content_eq, SaysValue, Res.ok.injEq, invalid, if_true]
    rw [← scanNumbers_iff F ((tagContent t).length + 1) _ _ (by omega)]
    cases scanNumbers F ((tagContent t).length + 1) (tagContent t) <;> simp
  case colorSequence ks =>
    simp only [Value.type, getValue, content_eq, SaysValue, Res.ok.injEq, invalid, if_true]
    rw [← scanColors_iff F ((tagContent t).length + 1) _ _ (by omega)]
    cases scanColors F ((tagContent t).length + 1) (tagContent t) <;> simp
  case numberRange a b =>
    simp only [Value.type, getValue, content_eq, SaysValue, Res.ok.injEq, invalid, if_true, numbers_cons, numbers_nil]
    rcases scanFloat F (tagContent t) with _ | ⟨x, rest⟩
    · simp
    · simp only [Option.some.injEq, Prod.mk.injEq]
      rcases hs : scanFloat F rest with _ | ⟨y, rest'⟩
      · simp only [reduceCtorEq, false_iff]
        rintro ⟨r, r', ⟨-, rfl⟩, r'', h, -⟩
        rw [hs] at h
        cases h
      · simp only [Option.some.injEq, Value.numberRange.injEq]
        constructor
        · rintro ⟨rfl, rfl⟩; exact ⟨_, rest, ⟨rfl, rfl⟩, rest', hs, rfl⟩
        · rintro ⟨r, r', ⟨rfl, rfl⟩, r'', h, -⟩
          rw [hs] at h
          cases h
          exact ⟨rfl, rfl⟩
  case rect a b => exact (rect_iff F t a b).symm
  case physicalProperties => exact (physical_iff F t _ _ _ _ _ _).symm
  case color3uint8 => exact (color3uint8_iff F t _ _ _).symm
  case int64 n => exact (int64_iff F t n).symm
  case sharedString => exact absurd rfl h1
  case optional => exact absurd rfl h3
  case uniqueId => exact (uniqueId_iff F t _ _ _).symm
  case font => exact (font_iff F t _ _ _ _).symm

end Rbxlx

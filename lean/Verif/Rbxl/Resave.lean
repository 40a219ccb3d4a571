import Verif.Rbxl.Simulate
/-!
# A decoded tree is written like the tree it comes from
-/
namespace Rbxl
open Go Rbxfile Spec

variable {ρ σ : Type}

/-! ### Plans -/

theorem planRest_of {t : TypeID} {k : Kind} : ∀ {vs : List (Value ρ)},
    (∀ v ∈ vs, fromValueType v.type = some t ∧
      ∀ typ o, v = .optional typ o → (fromValueType typ).map Kind.opt = some k) →
    planRest t k vs = .ok (some k) := by
  intro vs
  induction vs with
  | nil => intro _; rfl
  | cons v vs ih =>
    intro h
    obtain ⟨h1, h2⟩ := h v (by simp)
    have ih := ih fun w hw => h w (by simp [hw])
    unfold planRest
    rw [if_neg (fun h => h h1)]
    cases v
    case optional typ o =>
      simp only
      rw [if_neg (fun h => h (h2 typ o rfl)), ih]
    all_goals exact ih

theorem planProp_of {place : Bool} {is : List (Inst ρ)} {n : Bytes} {k : Kind} (hne : valuesOf is n ≠ [])
    (h : PlanSpec place (valuesOf is n) k) : planProp place is n = .ok (some k) := by
  unfold planProp
  have e : (is.filterMap fun i => i.properties.get? n) = valuesOf is n := rfl
  rw [e]
  cases hv : valuesOf is n with
  | nil => exact absurd hv hne
  | cons v vs =>
    rw [hv] at h
    simp only
    cases k with
    | plain t =>
      obtain ⟨a1, a2, a3⟩ := h
      rw [a3 v (by simp)]
      have hp : ¬ (!place && decide (t = TypeID.uniqueId)) = true := by
        intro hh
        simp only [Bool.and_eq_true, Bool.not_eq_true', decide_eq_true_eq] at hh
        rw [a2 hh.2] at hh
        exact absurd hh.1 (by decide)
      simp only
      rw [if_neg hp]
      have hno : ∀ w ∈ v :: vs, ∀ typ o, w ≠ .optional typ o := by
        rintro w hw typ o rfl
        have := a3 _ hw
        simp only [Value.type, fromValueType, Option.some.injEq] at this
        exact a1 this.symm
      have hr : planRest t (.plain t) vs = .ok (some (.plain t)) := planRest_of fun w hw =>
        ⟨a3 w (by simp [hw]), fun typ o e => absurd e (hno w (by simp [hw]) typ o)⟩
      cases v
      case optional typ o => exact absurd rfl (hno _ (by simp) typ o)
      all_goals exact hr
    | opt e =>
      obtain ⟨typ, o, rfl, he⟩ := h v (by simp)
      have ht : fromValueType (Value.optional typ o).type = some .optional := rfl
      have hp : ¬ (!place && decide (TypeID.optional = TypeID.uniqueId)) = true := by
        simp
      have hr : planRest .optional (.opt e) vs = .ok (some (.opt e)) := planRest_of fun w hw => by
        obtain ⟨typ', o', rfl, he'⟩ := h w (by simp [hw])
        refine ⟨rfl, ?_⟩
        rintro _ _ ⟨⟩
        rw [he']; rfl
      simp only [ht]
      rw [if_neg hp]
      simp only [he]
      exact hr

/-! ### Values -/

theorem F32.goEq_trans {a b c : F32} (h1 : F32.goEq a b = true) (h2 : F32.goEq b c = true) : F32.goEq a c = true := by
  simp only [F32.goEq, Bool.and_eq_true, Bool.or_eq_true, Bool.not_eq_true', beq_iff_eq] at h1 h2 ⊢
  grind

theorem matrixEq_trans {a b c : Matrix} (h1 : matrixEq a b = true) (h2 : matrixEq b c = true) : matrixEq a c = true := by
  simp only [matrixEq, Bool.and_eq_true] at h1 h2 ⊢
  obtain ⟨⟨⟨⟨⟨⟨⟨⟨a0, a1⟩, a2⟩, a3⟩, a4⟩, a5⟩, a6⟩, a7⟩, a8⟩ := h1
  obtain ⟨⟨⟨⟨⟨⟨⟨⟨b0, b1⟩, b2⟩, b3⟩, b4⟩, b5⟩, b6⟩, b7⟩, b8⟩ := h2
  exact ⟨⟨⟨⟨⟨⟨⟨⟨F32.goEq_trans a0 b0, F32.goEq_trans a1 b1⟩, F32.goEq_trans a2 b2⟩, F32.goEq_trans a3 b3⟩,
    F32.goEq_trans a4 b4⟩, F32.goEq_trans a5 b5⟩, F32.goEq_trans a6 b6⟩, F32.goEq_trans a7 b7⟩, F32.goEq_trans a8 b8⟩

theorem special_congr {r r' : Matrix} (h : matrixEq r r' = true) : cframeSpecialNumber r' = cframeSpecialNumber r := by
  have : (fun e : Byte × Matrix => matrixEq e.2 r') = fun e => matrixEq e.2 r := by
    funext e
    rw [Bool.eq_iff_iff]
    constructor
    · intro h'; rw [matrixEq_comm] at h; exact matrixEq_trans h' h
    · intro h'; exact matrixEq_trans h' h
  simp only [cframeSpecialNumber, this]

theorem special_table : ∀ e ∈ cframeSpecialTable, (cframeSpecialNumber e.2).isSome = true := by decide

/-- What remains of a value is stored like the value. -/
theorem kept_encode {φ : ρ → Option σ} {v : Value ρ} {w : Value σ} (h : Kept φ v w) {b : Val}
    (hb : encodeValue v = some b) : ∃ b', encodeValue w = some b' ∧ b'.canon = b.canon := by
  cases v
  case cframe p r =>
    obtain ⟨r', rfl, hr⟩ := h
    rcases hr with rfl | ⟨h1, e, he, rfl⟩
    · exact ⟨b, hb, rfl⟩
    · simp only [encodeValue, special_congr h1] at hb ⊢
      rcases hs : cframeSpecialNumber r with _ | s
      · have := special_table e he
        rw [special_congr h1, hs] at this
        cases this
      · rw [hs] at hb
        exact ⟨b, hb, rfl⟩
  case physicalProperties c d f e fw ew =>
    simp only [Kept] at h
    subst h
    cases hb
    cases c
    · exact ⟨_, rfl, rfl⟩
    · exact ⟨_, rfl, rfl⟩
  case reference => cases hb
  case sharedString => cases hb
  case optional => cases hb
  all_goals
    simp only [Kept] at h
    subst h
    exact ⟨_, hb, rfl⟩

theorem kept_encode_none {φ : ρ → Option σ} {v : Value ρ} {w : Value σ} (h : Kept φ v w)
    (hb : encodeValue v = none) : encodeValue w = none := by
  have hnp : ¬ Value.plainValue v := by
    intro hpl
    obtain ⟨b', h1, _⟩ := encodeValue_some v hpl
    rw [hb] at h1; cases h1
  cases v
  case reference => simp only [Kept] at h; subst h; rfl
  case sharedString => simp only [Kept] at h; subst h; rfl
  case optional t o =>
    cases o with
    | none => simp only [Kept] at h; subst h; rfl
    | some x => obtain ⟨y, rfl, _⟩ := h; rfl
  all_goals exact absurd trivial hnp

theorem forall₂_mem_left {α β : Type} {R : α → β → Prop} : ∀ {xs : List α} {ys : List β}, List.Forall₂ R xs ys →
    List.Forall₂ (fun x y => x ∈ xs ∧ R x y) xs ys := by
  intro xs ys h
  induction h with
  | nil => exact .nil
  | cons h1 _ ih => exact .cons ⟨by simp, h1⟩ (ih.imp fun x y h => ⟨List.mem_cons_of_mem _ h.1, h.2⟩)

theorem kept_type {φ : ρ → Option σ} {v : Value ρ} {w : Value σ} (h : Kept φ v w) : w.type = binType v.type := by
  cases v
  case cframe p r => obtain ⟨r', rfl, _⟩ := h; rfl
  case optional t o =>
    cases o with
    | none => simp only [Kept] at h; subst h; rfl
    | some v => obtain ⟨x, rfl, _⟩ := h; rfl
  case physicalProperties c d f e fw ew =>
    simp only [Kept] at h
    subst h
    cases c <;> rfl
  all_goals
    simp only [Kept] at h
    subst h
    rfl

theorem zeroValue_type {ty : Ty} {t : TypeID} (h : fromValueType ty = some t) :
    (zeroValue (σ := σ) (binType ty)).type = binType ty := by
  cases ty <;> first | rfl | cases h

theorem zeroValue_encode {ty : Ty} {t : TypeID} (h : fromValueType ty = some t) (h1 : t ≠ .reference)
    (h2 : t ≠ .sharedString) (h3 : t ≠ .optional) :
    ∃ d b', newValue t = some d ∧ encodeValue (zeroValue (σ := σ) (binType ty)) = some b' ∧ b'.canon = d.canon := by
  cases ty <;> simp only [fromValueType, Option.some.injEq, reduceCtorEq] at h <;> subst h <;> first
    | exact absurd rfl h1
    | exact absurd rfl h2
    | exact absurd rfl h3
    | exact ⟨_, _, rfl, rfl, rfl⟩

/-! ### Classes -/

/-- An instance and what is decoded for it. -/
def Back (place : Bool) (φ : ρ → Option σ) (d : Missing σ) (vs : Bytes → List (Value ρ)) (i : Inst ρ) (j : Inst σ) : Prop :=
  ∀ n, (Written place (vs n) → ∃ w, j.properties.get? n = some w ∧ Expected φ d (vs n) (i.properties.get? n) w) ∧
    (¬ Written place (vs n) → j.properties.get? n = none)

theorem forall₂_valuesOf {R : Option (Value ρ) → Value σ → Prop} {n : Bytes} : ∀ {is : List (Inst ρ)} {js : List (Inst σ)},
    List.Forall₂ (fun i j => ∃ w, j.properties.get? n = some w ∧ R (i.properties.get? n) w) is js →
    ∀ w ∈ valuesOf js n, ∃ i ∈ is, R (i.properties.get? n) w := by
  intro is js h w hw
  obtain ⟨j, hj, hj2⟩ := List.mem_filterMap.1 hw
  obtain ⟨i, hi, x, hx, hr⟩ := forall₂_mem h j hj
  rw [hx] at hj2
  cases hj2
  exact ⟨i, hi, hr⟩

theorem sameClass_back {place : Bool} {φ : ρ → Option σ} {d : Missing σ} {ref : Option ρ → BitVec 32}
    {ref' : Option σ → BitVec 32} {is : List (Inst ρ)} {js : List (Inst σ)}
    (hb : List.Forall₂ (Back place φ d (valuesOf is)) is js)
    (href : ∀ p, ref' (p.bind φ) = ref p) (hfirst : is ≠ [] → ref' d.first = 0)
    (hplan : ∀ n, Written place (valuesOf is n) → ∃ k, PlanSpec place (valuesOf is n) k) :
    SameClass place ref ref' d.shared is js := by
  have hw : ∀ n, Written place (valuesOf is n) → List.Forall₂ (fun i j => ∃ w, j.properties.get? n = some w ∧
      Expected φ d (valuesOf is n) (i.properties.get? n) w) is js :=
    fun n hn => hb.imp fun i j h => (h n).1 hn
  have hne : ∀ n, Written place (valuesOf is n) → valuesOf js n ≠ [] := by
    intro n hn
    have h := hw n hn
    cases h with
    | nil => exact absurd rfl hn.1
    | cons h1 _ =>
      obtain ⟨w, hw, _⟩ := h1
      simp [valuesOf, hw]
  refine ⟨?_, ?_⟩
  · intro n k h1 h2
    obtain ⟨hn, hp⟩ : Written place (valuesOf is n) ∧ PlanSpec place (valuesOf is n) k := by
      rcases planProp_ok h2 with ⟨e, _⟩ | ⟨k', e, a, b⟩
      · cases e
      · cases e; exact ⟨a, b⟩
    have hall := hw n hn
    have hown : ∀ i ∈ is, ∀ v, i.properties.get? n = some v → v ∈ valuesOf is n :=
      fun i hi v hv => List.mem_filterMap.2 ⟨i, hi, hv⟩
    obtain ⟨v0, hv0⟩ := List.exists_mem_of_ne_nil _ h1
    have hisne : is ≠ [] := by
      rintro rfl; exact h1 rfl
    refine ⟨hne n hn, planProp_of (hne n hn) ?_, ?_⟩
    · cases k with
      | plain t =>
        obtain ⟨a1, a2, a3⟩ := hp
        refine ⟨a1, a2, ?_⟩
        intro w hw'
        obtain ⟨i, hi, e1, e2⟩ := forall₂_valuesOf hall w hw'
        rcases hv : i.properties.get? n with _ | v
        · have h3 := a3 v0 hv0
          have e2 := e2 hv v0 hv0
          cases v0
          case reference => simp only at e2; subst e2; exact h3
          case sharedString => simp only at e2; subst e2; exact h3
          case optional =>
            simp only [Value.type, fromValueType, Option.some.injEq] at h3
            exact absurd h3.symm a1
          all_goals
            simp only at e2
            subst e2
            rw [zeroValue_type h3, fromValueType_binType]
            exact h3
        · rw [kept_type (e1 v hv), fromValueType_binType]
          exact a3 v (hown i hi v hv)
      | opt e =>
        intro w hw'
        obtain ⟨i, hi, e1, e2⟩ := forall₂_valuesOf hall w hw'
        rcases hv : i.properties.get? n with _ | v
        · obtain ⟨typ, o, rfl, he⟩ := hp v0 hv0
          exact ⟨_, _, e2 hv _ hv0, by rw [fromValueType_binType]; exact he⟩
        · obtain ⟨typ, o, rfl, he⟩ := hp v (hown i hi v hv)
          have := e1 _ hv
          cases o with
          | none => exact ⟨_, _, this, by rw [fromValueType_binType]; exact he⟩
          | some x =>
            obtain ⟨y, rfl, _⟩ := this
            exact ⟨_, _, rfl, by rw [fromValueType_binType]; exact he⟩
    · cases k with
      | plain t =>
        obtain ⟨a1, a2, a3⟩ := hp
        refine ⟨a1, a3, ?_, ?_⟩
        · rintro rfl
          have := a3 v0 hv0
          cases v0 <;> simp [Value.type, fromValueType] at this
          exact ⟨_, hv0⟩
        · have hmem : List.Forall₂ (fun i j => i ∈ is ∧ ∃ w, j.properties.get? n = some w ∧
              Expected φ d (valuesOf is n) (i.properties.get? n) w) is js := forall₂_mem_left hall
          refine hmem.imp ?_
          rintro i j ⟨hi, w, hj, e1, e2⟩
          rw [hj]
          rcases hv : i.properties.get? n with _ | v
          · have e2 := e2 hv v0 hv0
            have h3 := a3 v0 hv0
            have zero : w = zeroValue (binType v0.type) → t ≠ .reference → t ≠ .sharedString → SameNone ref' d.shared t w := by
              rintro rfl h1 h2
              have := zeroValue_encode (σ := σ) h3 h1 h2 a1
              cases t <;> first | exact absurd rfl h1 | exact absurd rfl h2 | exact this
            simp only [SameOwn]
            cases v0
            case reference =>
              simp only [Value.type, fromValueType, Option.some.injEq] at h3
              subst h3
              exact ⟨d.first, e2, hfirst hisne⟩
            case sharedString =>
              simp only [Value.type, fromValueType, Option.some.injEq] at h3
              subst h3
              exact e2
            case optional =>
              simp only [Value.type, fromValueType, Option.some.injEq] at h3
              exact absurd h3.symm a1
            all_goals
              refine zero e2 ?_ ?_
              · rintro rfl; simp [Value.type, fromValueType] at h3
              · rintro rfl; simp [Value.type, fromValueType] at h3
          · have h3 := a3 v (hown i hi v hv)
            have e1 := e1 v hv
            simp only [SameOwn]
            have plain : Value.plainValue v → ∃ b b', encodeValue v = some b ∧ encodeValue w = some b' ∧ b'.canon = b.canon := by
              intro hpl
              obtain ⟨b, hb, _⟩ := encodeValue_some v hpl
              obtain ⟨b', hb', hc⟩ := kept_encode e1 hb
              exact ⟨b, b', hb, hb', hc⟩
            cases v
            case reference p => exact ⟨_, e1, href p⟩
            case sharedString s => exact e1
            case optional =>
              simp only [Value.type, fromValueType, Option.some.injEq] at h3
              exact absurd h3.symm a1
            all_goals exact plain trivial
      | opt e =>
        have hmem : List.Forall₂ (fun i j => i ∈ is ∧ ∃ w, j.properties.get? n = some w ∧
            Expected φ d (valuesOf is n) (i.properties.get? n) w) is js := forall₂_mem_left hall
        refine List.Forall₂.imp ?_ hmem
        rintro i j ⟨hi, w, hj, e1, e2⟩
        rw [hj]
        rcases hv : i.properties.get? n with _ | v
        · obtain ⟨typ, o, rfl, he⟩ := hp v0 hv0
          have e2 : w = _ := e2 hv _ hv0
          subst e2
          rfl
        · obtain ⟨typ, o, rfl, he⟩ := hp v (hown i hi v hv)
          have e1 := e1 _ hv
          cases o with
          | none => simp only [Kept] at e1; subst e1; rfl
          | some x =>
            obtain ⟨y, rfl, hy⟩ := e1
            simp only [SameOpt, optVal]
            rcases hx : encodeValue x with _ | b
            · rw [kept_encode_none hy hx]
            · obtain ⟨b', hb', hc⟩ := kept_encode hy hx
              rw [hb']
              simp [hc]
  · intro n hn
    by_cases hwr : Written place (valuesOf is n)
    · obtain ⟨k, hk⟩ := hplan n hwr
      exact .inl ⟨hwr.1, k, planProp_of hwr.1 hk⟩
    · exfalso
      obtain ⟨w, hw'⟩ := List.exists_mem_of_ne_nil _ hn
      obtain ⟨j, hj, hj2⟩ := List.mem_filterMap.1 hw'
      obtain ⟨i, hi, hij⟩ := forall₂_mem hb j hj
      rw [(hij n).2 hwr] at hj2
      cases hj2

theorem propsOk_plan {hash : Bytes → Bytes} {ref : Option ρ → BitVec 32} {place : Bool} {insts : List (Inst ρ)} {sh : Shared} :
    ∀ {names : List Bytes} {k : Nat} {cs : List PropChunk}, PropsOk hash ref place insts sh k names cs →
    ∀ cls ∈ names, ∀ n, Written place (valuesOf (classInsts insts cls) n) →
      ∃ kd, PlanSpec place (valuesOf (classInsts insts cls) n) kd := by
  intro names
  induction names with
  | nil => intro _ _ _ cls h; cases h
  | cons c names ih =>
    rintro k cs ⟨plan, xs, ys, _, ⟨_, p2, p3⟩, _, hys⟩ cls hcls n hn
    rcases List.mem_cons.1 hcls with rfl | hcls
    · obtain ⟨x, hx, rfl⟩ := List.mem_map.1 (p3 n hn)
      exact ⟨x.2, (p2 x hx).2⟩
    · exact ih hys cls hcls n hn

theorem forall₂_filter {α β : Type} {R : α → β → Prop} {p : α → Bool} {q : β → Bool} : ∀ {xs : List α} {ys : List β},
    List.Forall₂ R xs ys → (∀ x y, R x y → p x = q y) → List.Forall₂ R (xs.filter p) (ys.filter q) := by
  intro xs ys h hpq
  induction h with
  | nil => exact .nil
  | cons h1 _ ih =>
    rename_i x y _ _ _
    have := hpq _ _ h1
    by_cases hx : p x = true
    · rw [List.filter_cons_of_pos hx, List.filter_cons_of_pos (this ▸ hx)]
      exact .cons h1 ih
    · rw [List.filter_cons_of_neg hx, List.filter_cons_of_neg (this ▸ hx)]
      exact ih

variable [DecidableEq ρ]

/-- A tree and the one decoded from its encoding are written alike. -/
theorem alike_decoded {hash : Bytes → Bytes} {place : Bool} {h : Heap ρ} {root : Root ρ} {l : Map ρ (Inst ρ)}
    {f : FormatModel} {names : List Bytes} {pairs : List (ρ × Option ρ)} {props : List PropChunk} {shared : Shared}
    {metas shareds : List Chunk} (e : Encoded hash place root l f names pairs props shared metas shareds)
    (ht : Trees h root.instances l) {h' : Heap Id} {root' : Root Id} {d : Missing Id} (hd : MissingOk l d)
    (hr : root'.instances.map some = root.instances.map (decodedId l))
    (hi : ∀ p inst, (p, inst) ∈ l → ∃ q inst', decodedId l p = some q ∧ h'.get? q = some inst' ∧
        inst'.className = inst.className ∧ inst'.reference = [] ∧
        inst'.isService = (place && inst.isService) ∧
        inst'.children.map some = inst.children.map (decodedId l) ∧
        ∀ n, (Written place (valuesOf (classmates l inst.className) n) →
            ∃ w, inst'.properties.get? n = some w ∧
              Expected (decodedId l) d (valuesOf (classmates l inst.className) n)
                (inst.properties.get? n) w) ∧
          (¬ Written place (valuesOf (classmates l inst.className) n) →
            inst'.properties.get? n = none)) :
    Alike place d.shared (fun p => refNum l (some p)) h root l h' root' := by
  have hn := e.small
  have hid : ∀ p ∈ l.map Prod.fst, decodedId l p = some (refNum l (some p)) := by
    intro p hp
    simp only [decodedId]
    rw [if_pos hp]
  have hmap : ∀ (xs : List Id) (ps : List ρ), (∀ p ∈ ps, p ∈ l.map Prod.fst) → xs.map some = ps.map (decodedId l) →
      xs = ps.map fun p => refNum l (some p) := by
    intro xs ps hps he
    have : ps.map (decodedId l) = (ps.map fun p => refNum l (some p)).map some := by
      rw [List.map_map]
      exact List.map_congr_left fun p hp => hid p (hps p hp)
    rw [this] at he
    exact (List.map_inj_right (fun a b h => Option.some.inj h)).1 he
  have hinj : ∀ p ∈ l.map Prod.fst, ∀ q ∈ l.map Prod.fst, refNum l (some p) = refNum l (some q) → p = q := by
    intro p hp q hq he
    have := refNum_inj ht.2 hn (x := some p) (y := some q) (by rintro _ ⟨⟩; exact hp) (by rintro _ ⟨⟩; exact hq) he
    exact Option.some.inj this
  have hget : ∀ x ∈ l, ∃ j, h'.get? (refNum l (some x.1)) = some j ∧ j.className = x.2.className ∧
      j.isService = (place && x.2.isService) ∧ j.children.map some = x.2.children.map (decodedId l) ∧
      Back place (decodedId l) d (valuesOf (classmates l x.2.className)) x.2 j := by
    rintro ⟨p, inst⟩ hx
    obtain ⟨q, j, g1, g2, g3, _, g5, g6, g7⟩ := hi p inst hx
    have hp : p ∈ l.map Prod.fst := List.mem_map.2 ⟨_, hx, rfl⟩
    rw [hid p hp] at g1
    cases g1
    exact ⟨j, g2, g3, g5, g6, g7⟩
  refine ⟨ht, hinj, hmap _ _ (Forest.roots_mem ht.1) hr, ?_, ?_⟩
  · intro x hx
    obtain ⟨j, g1, g2, g3, g4, _⟩ := hget x hx
    refine ⟨j, g1, hmap _ _ (Forest.children_mem ht.1 x hx) g4, g2, ?_⟩
    rw [g3]
    cases place <;> rfl
  · intro cls
    rw [classInsts_eq, classInsts_eq]
    have hall : List.Forall₂ (fun (i : Inst ρ) (j : Inst Id) => j.className = i.className ∧
        Back place (decodedId l) d (valuesOf (classmates l i.className)) i j) (l.map Prod.snd)
        ((mapList (fun p => refNum l (some p)) h' l).map Prod.snd) := by
      simp only [mapList, List.map_map]
      rw [List.forall₂_map_left_iff, List.forall₂_map_right_iff, List.forall₂_same]
      intro x hx
      obtain ⟨j, g1, g2, _, _, g5⟩ := hget x hx
      simp only [Function.comp_apply, g1, Option.getD_some]
      exact ⟨g2, g5⟩
    have hf := forall₂_filter (p := fun i => decide (i.className = cls)) (q := fun j => decide (j.className = cls)) hall
      (fun x y h => by rw [h.1])
    have hf2 : List.Forall₂ (Back place (decodedId l) d (valuesOf ((l.map Prod.snd).filter fun i => decide (i.className = cls))))
        ((l.map Prod.snd).filter fun i => decide (i.className = cls))
        (((mapList (fun p => refNum l (some p)) h' l).map Prod.snd).filter fun i => decide (i.className = cls)) := by
      refine (forall₂_mem_left hf).imp ?_
      rintro i j ⟨hi, _, hb⟩
      have : i.className = cls := by simpa using (List.mem_filter.1 hi).2
      rw [this] at hb
      exact hb
    refine sameClass_back hf2 ?_ ?_ ?_
    · intro p
      cases p with
      | none => rfl
      | some p =>
        simp only [Option.bind_some]
        by_cases hp : p ∈ l.map Prod.fst
        · rw [hid p hp]
          exact refNum_map hinj hp
        · rw [refNum_not_mem hp]
          have : decodedId l p = none := by simp only [decodedId]; rw [if_neg hp]
          rw [this]; rfl
    · intro hne
      rw [hd.1]
      cases l with
      | nil => exact absurd rfl hne
      | cons x l =>
        simp only [List.map_cons, List.head?_cons, Option.bind_some]
        rw [hid x.1 (by simp)]
        rw [refNum_map hinj (by simp)]
        exact refNum_of_idx ht.2 (i := 0) (x := x) rfl
    · intro n hw
      by_cases hc : cls ∈ names
      · have := propsOk_plan e.propsOk cls hc n
        rw [classInsts_eq] at this
        exact this hw
      · exfalso
        obtain ⟨v, hv⟩ := List.exists_mem_of_ne_nil _ hw.1
        obtain ⟨i, hi, _⟩ := List.mem_filterMap.1 hv
        obtain ⟨h1, h2⟩ := List.mem_filter.1 hi
        exact hc ((e.mem cls).2 ⟨i, h1, by simpa using h2⟩)

/-- The bytes written for a list of chunks. -/
theorem writeChunks_append (lz : LZ4) (u : Bool) : ∀ (xs ys : List Chunk), writeChunks lz u (xs ++ ys) =
    (writeChunks lz u xs).bind fun a => (writeChunks lz u ys).bind fun b => .ok (a ++ b) := by
  intro xs ys
  induction xs with
  | nil =>
    show writeChunks lz u ys = (writeChunks lz u ys).bind fun b => .ok ([] ++ b)
    cases writeChunks lz u ys <;> rfl
  | cons c xs ih =>
    rw [List.cons_append, writeChunks, writeChunks, ih]
    cases writeChunk lz u c with
    | panic => rfl
    | err e => rfl
    | ok a =>
      simp only [Res.ok_bind]
      cases writeChunks lz u xs with
      | panic => rfl
      | err e => rfl
      | ok b =>
        cases writeChunks lz u ys with
        | panic => rfl
        | err e => rfl
        | ok c =>
          show Res.ok (a ++ (b ++ c)) = .ok (a ++ b ++ c)
          rw [List.append_assoc]

theorem Map.perm_of_get? {m m' : Map Bytes Bytes} (h : m.Ok) (h' : m'.Ok) (he : ∀ k, m'.get? k = m.get? k) :
    m'.Perm m := by
  have nd : ∀ {a : Map Bytes Bytes}, a.Ok → a.Nodup := by
    intro a ha
    exact List.Pairwise.imp (fun hne e => hne (by rw [e])) (List.pairwise_map.1 ha)
  refine (List.perm_ext_iff_of_nodup (nd h') (nd h)).2 ?_
  rintro ⟨k, v⟩
  constructor
  · intro hm
    have := Map.get?_of_mem h' hm
    rw [he] at this
    exact Map.mem_of_get? this
  · intro hm
    have := Map.get?_of_mem h hm
    rw [← he] at this
    exact Map.mem_of_get? this

/-- Encoding a tree, decoding the file and encoding the result. -/
theorem resave (lz : LZ4) (hlz : lz.Lossless) (slack : Bytes → Nat) (quat : Quat) (noXML u : Bool)
    (it it' : Iter) (srt srt' : Sorter) (hash : Bytes → Bytes) (place : Bool) (h : Heap ρ) (root : Root ρ)
    (l : Map ρ (Inst ρ)) (ht : Trees h root.instances l) (hm : root.metadata.Ok)
    (hsup : ∀ x ∈ l, ∀ n v, x.2.properties.get? n = some v → Supported v)
    (hcol : ∀ s s', UsedShared l s → UsedShared l s' → hash s = hash s' → s = s')
    (hsmall : SmallChunks it srt hash place h root) (b : Bytes)
    (hb : encodeRoot lz u it srt hash place h root = .ok b) :
    ∃ stats h' root', decodeRoot lz slack quat noXML b = ⟨[], [], stats, .ok (.tree h' root')⟩ ∧
      root'.metadata.Perm root.metadata ∧
      ∃ header metas tail, b = header ++ metas ++ tail ∧ header.length = 32 ∧
        writeChunks lz u (if root.metadata.length = 0 then []
          else [⟨.metadata (srt.run metaLess (it.run [4] root.metadata)), true⟩]) = .ok metas ∧
        encodeRoot lz u it' srt' hash place h' root' =
          (writeChunks lz u (if root'.metadata.length = 0 then []
            else [⟨.metadata (srt'.run metaLess (it'.run [4] root'.metadata)), true⟩])).bind fun metas' =>
              .ok (header ++ metas' ++ tail) := by
  simp only [encodeRoot, Res.bind_eq_ok] at hb
  obtain ⟨f, hf, hb⟩ := hb
  have hfit := hsmall f hf
  obtain ⟨names, pairs, props, shared, metas, shareds, hprops, e⟩ :=
    encoded' it srt hash place h root l ht f hf hfit
  obtain ⟨stats, hd, _⟩ := Props.C08_file_roundtrip lz hlz slack noXML u f e.version
    (e.good hsup hfit) b hb
  obtain ⟨h', root', d, hc, ⟨hshared, hmok⟩, _, hmiss, hroots, hmeta, hinst⟩ :=
    e.decode ht.2 (Forest.children_mem ht.1) (Forest.roots_mem ht.1) hm hsup hcol hfit quat u
  have ha := alike_decoded e ht hmiss hroots hinst
  obtain ⟨f', rest, rest', c1, c2, c3, c4, c5, c6, c7, c8⟩ := ha.encode it it' srt srt' hash e.small f hf (by
    intro props2 shared2 h2
    rw [hprops] at h2
    cases h2
    rintro ⟨a, s⟩ r hr
    have h1 := (e.sharedOk.1 (a, s) (by rw [hr]; simp)).1
    have h2 := hshared _ _ hr
    simp only at h1 h2
    rw [h1, h2])
  refine ⟨stats, h', root', ?_, Map.perm_of_get? hm hmok hmeta, ?_⟩
  · rw [decodeRoot, hd]
    simp only [e.noWarns u, hc, Res.ok_bind, Res.pure_eq]
  · simp only [encodeFile, c6, writeChunks_append, Res.bind_eq_ok, Res.pure_eq, Res.ok.injEq] at hb
    obtain ⟨cs, hcs, hb⟩ := hb
    have hcs' : ∃ m r, writeChunks lz u (if root.metadata.length = 0 then []
        else [⟨.metadata (srt.run metaLess (it.run [4] root.metadata)), true⟩]) = .ok m ∧
        writeChunks lz u rest = .ok r ∧ cs = m ++ r := by
      revert hcs
      cases writeChunks lz u (if root.metadata.length = 0 then []
        else [⟨.metadata (srt.run metaLess (it.run [4] root.metadata)), true⟩]) with
      | panic => intro h; cases h
      | err e => intro h; cases h
      | ok m =>
        cases writeChunks lz u rest with
        | panic => intro h; cases h
        | err e => intro h; cases h
        | ok r => intro h; cases h; exact ⟨m, r, rfl, rfl, rfl⟩
    obtain ⟨m, r, hm1, hr1, rfl⟩ := hcs'
    refine ⟨fileHeader f.version f.classCount f.instanceCount, m, r ++ f.trailing, ?_, ?_, hm1, ?_⟩
    · rw [← hb]; simp only [List.append_assoc]
    · have r1 : robloxSig.length = 7 := by decide
      have r2 : binaryMarker.length = 1 := by decide
      have r3 : binaryHeader.length = 6 := by decide
      simp only [fileHeader, List.length_append, le16_length, le32_length, le64_length, r1, r2, r3]
    · simp only [encodeRoot, c1, Res.ok_bind, encodeFile, c2, c3, c4, c5, c7, writeChunks_append,
        writeChunks_congr lz u c8, hr1]
      generalize writeChunks lz u (if root'.metadata.length = 0 then []
            else [⟨.metadata (srt'.run metaLess (it'.run [4] root'.metadata)), true⟩]) = w
      cases w with
      | panic => rfl
      | err e => rfl
      | ok w =>
        show Res.ok _ = Res.ok _
        simp only [List.append_assoc]

end Rbxl

import Verif.Rbxl.EncNoPanic
import Verif.Spec.EncodePanics
/-!
# When encoding a tree panics
-/
namespace Rbxl
open Go Rbxfile Spec

variable {ρ : Type} [DecidableEq ρ]

theorem not_ok_panic {α : Type} {x : Res α} (h : ∀ e, x ≠ .err e) : x = .panic ↔ ¬ x.isOk := by
  cases x with
  | ok a => simp
  | err e => exact absurd rfl (h e)
  | panic => simp

theorem binType_of_fromValueType {t t' : Ty} (h : fromValueType t = fromValueType t') : binType t = binType t' := by
  cases t <;> cases t' <;> first | rfl | (exfalso; revert h; decide)

theorem fromValueType_iff {t t' : Ty} : fromValueType t = fromValueType t' ↔ binType t = binType t' :=
  ⟨binType_of_fromValueType, fromValueType_congr⟩

omit [DecidableEq ρ] in
/-- The check of the values after the first, which is an Optional of type `typ`. -/
theorem planRest_exact {typ : Ty} {e : TypeID} (he : fromValueType typ = some e) : ∀ (vs : List (Value ρ)),
    ((planRest .optional (.opt e) vs).isOk ↔
      ¬ ∃ pre t' o' post, vs = pre ++ .optional t' o' :: post ∧ binType t' ≠ binType typ ∧ ∀ v ∈ pre, OptionalOf typ v) ∧
    (planRest .optional (.opt e) vs = .ok (some (.opt e)) ↔ ∀ v ∈ vs, OptionalOf typ v) := by
  intro vs
  induction vs with
  | nil =>
    refine ⟨⟨fun _ => ?_, fun _ => trivial⟩, fun _ => ?_, fun _ => rfl⟩
    · rintro ⟨pre, t', o', post, h, -⟩
      simp at h
    · simp
  | cons v vs ih =>
    unfold planRest
    by_cases hv : fromValueType v.type ≠ some .optional
    · rw [if_pos hv]
      have hno : ∀ t o, v ≠ .optional t o := by
        rintro t o rfl
        exact hv rfl
      refine ⟨⟨fun _ => ?_, fun _ => trivial⟩, nofun, fun h => ?_⟩
      · rintro ⟨pre, t', o', post, h, h1, h2⟩
        cases pre with
        | nil => cases h; exact hno _ _ rfl
        | cons w pre =>
          cases h
          obtain ⟨t2, o2, rfl, -⟩ := h2 v (by simp)
          exact hno _ _ rfl
      · obtain ⟨t2, o2, rfl, -⟩ := h v (by simp)
        exact absurd rfl (hno _ _)
    · rw [if_neg hv]
      have hv' : v.type = .optional := by
        have : fromValueType v.type = some .optional := Classical.byContradiction fun h => hv h
        exact fromValueType_optional this
      obtain ⟨t2, o2, rfl⟩ : ∃ t o, v = .optional t o := by
        cases v <;> simp [Value.type] at hv' ⊢
      simp only
      by_cases ht : binType t2 = binType typ
      · have : (fromValueType t2).map Kind.opt = some (.opt e) := by rw [fromValueType_congr ht, he]; rfl
        rw [if_neg (by simp [this]), ih.1, ih.2]
        refine ⟨not_congr ⟨?_, ?_⟩, ?_⟩
        · rintro ⟨pre, t', o', post, rfl, h1, h2⟩
          refine ⟨.optional t2 o2 :: pre, t', o', post, rfl, h1, ?_⟩
          intro v hv
          rcases List.mem_cons.1 hv with rfl | hv
          · exact ⟨t2, o2, rfl, ht⟩
          · exact h2 v hv
        · rintro ⟨pre, t', o', post, h, h1, h2⟩
          cases pre with
          | nil => cases h; exact absurd ht h1
          | cons w pre =>
            cases h
            exact ⟨pre, t', o', post, rfl, h1, fun v hv => h2 v (by simp [hv])⟩
        · rw [List.forall_mem_cons]
          exact ⟨fun h => ⟨⟨t2, o2, rfl, ht⟩, h⟩, fun h => h.2⟩
      · have : (fromValueType t2).map Kind.opt ≠ some (.opt e) := by
          intro h
          refine ht (binType_of_fromValueType ?_)
          rw [he]
          cases h2 : fromValueType t2 with
          | none => rw [h2] at h; cases h
          | some x => rw [h2] at h; cases h; rfl
        rw [if_pos this]
        refine ⟨⟨fun h => h.elim, fun h => absurd ⟨[], t2, o2, vs, rfl, ht, by simp⟩ h⟩, nofun, fun h => ?_⟩
        obtain ⟨t', o', e', h'⟩ := h (.optional t2 o2) (by simp)
        cases e'
        exact absurd h' ht

/-- The values of a property are all Optionals of Optionals. -/
def NestedOptionals (vs : List (Value ρ)) : Prop := ∃ t o rest, vs = .optional t o :: rest ∧ t = .optional ∧ ∀ v ∈ rest, OptionalOf t v

omit [DecidableEq ρ] in
theorem planProp_exact (place : Bool) (insts : List (Inst ρ)) (n : Bytes) (hne : valuesOf insts n ≠ []) :
    (BadOptionals (valuesOf insts n) ↔ ¬ (planProp place insts n).isOk ∨ planProp place insts n = .ok (some (.opt .optional))) := by
  unfold planProp
  unfold valuesOf at hne ⊢
  generalize (insts.filterMap fun i => i.properties.get? n) = vs at hne ⊢
  cases vs with
  | nil => exact absurd rfl hne
  | cons v vs =>
    have hvi : v.type ≠ .invalid := by cases v <;> simp [Value.type]
    obtain ⟨t, ht⟩ := fromValueType_some hvi
    simp only [ht]
    by_cases hopt : ∃ typ o, v = .optional typ o
    · obtain ⟨typ, o, rfl⟩ := hopt
      have : t = .optional := by simpa [Value.type, fromValueType] using ht.symm
      subst this
      rw [if_neg (by simp)]
      simp only
      by_cases hi : typ = .invalid
      · subst hi
        simp only [fromValueType]
        refine ⟨fun _ => .inl (fun h => h), fun _ => ⟨_, _, _, rfl, .inl rfl⟩⟩
      · obtain ⟨e, he⟩ := fromValueType_some hi
        simp only [he]
        obtain ⟨h1, h2⟩ := planRest_exact he vs
        rw [h1, Classical.not_not]
        constructor
        · rintro ⟨t', o', rest, h, h'⟩
          cases h
          rcases h' with h' | h' | ⟨h', h3⟩
          · exact absurd h' hi
          · exact .inl h'
          · subst h'
            have : e = .optional := by simpa [fromValueType] using he.symm
            subst this
            exact .inr (h2.2 h3)
        · rintro (h | h)
          · exact ⟨_, _, _, rfl, .inr (.inl h)⟩
          · have hk := (planRest_kind h).1
            cases hk
            exact ⟨_, _, _, rfl, .inr (.inr ⟨fromValueType_optional he, h2.1 h⟩)⟩
    · have hno : ∀ typ o, v ≠ .optional typ o := fun typ o h => hopt ⟨typ, o, h⟩
      have hto : t ≠ .optional := by
        rintro rfl
        have := fromValueType_optional ht
        cases v <;> simp [Value.type] at this
        exact hno _ _ rfl
      have hL : ¬ BadOptionals (v :: vs) := by
        rintro ⟨t', o', rest, h, -⟩
        cases h
        exact hno _ _ rfl
      refine ⟨fun h => absurd h hL, fun h => ?_⟩
      exfalso
      rcases h with h | h
      · apply h
        split
        · trivial
        · split
          · exact absurd rfl (hno _ _)
          · apply planRest_isOk
            intro typ o hm ht'
            exact absurd ht' hto
      · split at h
        · cases h
        · split at h
          · exact absurd rfl (hno _ _)
          · have := (planRest_kind h).1
            cases this

/-! ### Filling -/

omit [DecidableEq ρ] in
theorem fillProp_exact (hash : Bytes → Bytes) (ref : Option ρ → BitVec 32) (cid : BitVec 32) {insts : List (Inst ρ)}
    (hne : insts ≠ []) {place : Bool} {p : Bytes × Kind} (hp : PlanSpec place (valuesOf insts p.1) p.2)
    (hw : ∀ t v, .optional t (some v) ∈ valuesOf insts p.1 → v.type = t) (sh : Shared) :
    (p.2 ≠ .opt .optional → (fillProp hash ref cid insts p sh).isOk) ∧
    (p.2 = .opt .optional → fillProp hash ref cid insts p sh = .panic) := by
  unfold fillProp
  split
  · rename_i t ht
    rw [ht] at hp
    refine ⟨fun _ => ?_, fun h => by rw [ht] at h; cases h⟩
    have := fillPlain_isOk hash ref hp.1 p.1 insts sh
    exact isOk_bind this fun _ => trivial
  · rename_i t ht
    rw [ht] at hp
    refine ⟨fun h => ?_, fun h => ?_⟩
    · have hto : t ≠ .optional := by rintro rfl; exact h ht
      refine isOk_bind (fillOpts_isOk hto p.1 insts ?_) fun _ => trivial
      intro typ v hv
      obtain ⟨typ', o, e, h'⟩ := hp _ hv
      cases e
      rw [hw _ _ hv, h']
    · rw [ht] at h
      cases h
      cases insts with
      | nil => exact absurd rfl hne
      | cons i is =>
        have : fillOpt (ρ := ρ) .optional (i.properties.get? p.1) = .panic := by
          unfold fillOpt
          split
          · rename_i typ v hv
            have hm : Value.optional typ (some v) ∈ valuesOf (i :: is) p.1 := List.mem_filterMap.2 ⟨i, by simp, hv⟩
            obtain ⟨typ', o, e, h'⟩ := hp _ hm
            cases e
            have hv' := hw _ _ hm
            rw [fromValueType_optional h'] at hv'
            have : encodeValue v = none := by
              cases v <;> simp [Value.type, encodeValue] at hv' ⊢
            simp only [this, newValue]
          · rfl
        simp only [fillOpts, this]
        rfl

omit [DecidableEq ρ] in
theorem fillProps_exact (hash : Bytes → Bytes) (ref : Option ρ → BitVec 32) (cid : BitVec 32) {insts : List (Inst ρ)}
    (hne : insts ≠ []) {place : Bool} (hw : ∀ n t v, .optional t (some v) ∈ valuesOf insts n → v.type = t) :
    ∀ (plan : List (Bytes × Kind)) (sh : Shared), (∀ x ∈ plan, PlanSpec place (valuesOf insts x.1) x.2) →
    ((∀ x ∈ plan, x.2 ≠ .opt .optional) → (fillProps hash ref cid insts plan sh).isOk) ∧
    ((∃ x ∈ plan, x.2 = .opt .optional) → fillProps hash ref cid insts plan sh = .panic) := by
  intro plan
  induction plan with
  | nil => intro sh _; exact ⟨fun _ => trivial, fun ⟨x, h, _⟩ => by cases h⟩
  | cons p plan ih =>
    intro sh h
    obtain ⟨f1, f2⟩ := fillProp_exact hash ref cid hne (h p (by simp)) (hw p.1) sh
    by_cases hp : p.2 = .opt .optional
    · refine ⟨fun h' => absurd hp (h' p (by simp)), fun _ => ?_⟩
      simp only [fillProps, f2 hp]
      rfl
    · rcases hx : fillProp hash ref cid insts p sh with ⟨c, sh1⟩ | e | _
      · obtain ⟨g1, g2⟩ := ih sh1 fun x hx => h x (by simp [hx])
        simp only [fillProps, hx, Res.ok_bind]
        refine ⟨fun h' => isOk_bind (g1 fun x hx => h' x (by simp [hx])) fun _ => trivial, ?_⟩
        rintro ⟨x, hx, hk⟩
        rcases List.mem_cons.1 hx with rfl | hx
        · exact absurd hk hp
        · rw [g2 ⟨x, hx, hk⟩]
          rfl
      · have := f1 hp
        rw [hx] at this
        exact this.elim
      · have := f1 hp
        rw [hx] at this
        exact this.elim

theorem propChunks_exact (it : Iter) (srt : Sorter) (hash : Bytes → Bytes) (place : Bool)
    (L : Map ρ (Inst ρ)) (hn : L.length < 2 ^ 31)
    (hw : ∀ cls n t v, .optional t (some v) ∈ valuesOf (classInsts (L.map Prod.snd) cls) n → v.type = t) :
    ∀ (names : List Bytes) (k : Nat) (sh : Shared), (∀ cls ∈ names, classInsts (L.map Prod.snd) cls ≠ []) →
    ((∀ cls ∈ names, ∀ n, ¬ BadOptionals (valuesOf (classInsts (L.map Prod.snd) cls) n)) →
      (propChunks it srt hash place L k ((names.zipIdx k).map fun c =>
        { chunkOf place c.1 (members (L.map Prod.snd).zipIdx c.1) with
          classID := BitVec.ofNat 32 c.2 }) sh).isOk) ∧
    ((∃ cls ∈ names, ∃ n, BadOptionals (valuesOf (classInsts (L.map Prod.snd) cls) n)) →
      propChunks it srt hash place L k ((names.zipIdx k).map fun c =>
        { chunkOf place c.1 (members (L.map Prod.snd).zipIdx c.1) with
          classID := BitVec.ofNat 32 c.2 }) sh = .panic) := by
  intro names
  induction names with
  | nil => intro k sh _; exact ⟨fun _ => trivial, fun ⟨x, h, _⟩ => by cases h⟩
  | cons cls names ih =>
    intro k sh hne
    simp only [List.zipIdx_cons, List.map_cons, propChunks]
    have hi : instsOf (L.map Prod.snd)
        ((members (L.map Prod.snd).zipIdx cls).map fun y => BitVec.ofNat 32 y.2) =
        .ok (classInsts (L.map Prod.snd) cls) :=
      instsOf_members (by simpa using hn) _ (fun y hy => (mem_members.1 hy).1)
    simp only [chunkOf, hi, Res.ok_bind]
    have bad_ne : ∀ {n}, BadOptionals (valuesOf (classInsts (L.map Prod.snd) cls) n) →
        valuesOf (classInsts (L.map Prod.snd) cls) n ≠ [] := by
      rintro n ⟨t, o, rest, h, -⟩ h'
      rw [h] at h'; cases h'
    rcases classProps_cases it srt place k (classInsts (L.map Prod.snd) cls) with
      ⟨⟨n, h1, h2⟩, e⟩ | ⟨hall, plan, e, -, -, hplan⟩
    · have hbad := (planProp_exact place _ n h1).2 (.inl h2)
      refine ⟨fun h => absurd hbad (h cls (by simp) n), fun _ => ?_⟩
      rw [e]
      rfl
    · simp only [e, Res.ok_bind]
      have hbad : (∃ n, BadOptionals (valuesOf (classInsts (L.map Prod.snd) cls) n)) ↔ ∃ x ∈ plan, x.2 = .opt .optional := by
        constructor
        · rintro ⟨n, hb⟩
          rcases (planProp_exact place _ n (bad_ne hb)).1 hb with h | h
          · exact absurd (hall n (bad_ne hb)) h
          · exact ⟨(n, .opt .optional), (hplan _ _).2 ⟨bad_ne hb, h⟩, rfl⟩
        · rintro ⟨⟨n, k'⟩, hx, hk⟩
          obtain ⟨g1, g2⟩ := (hplan n k').1 hx
          simp only at hk
          subst hk
          exact ⟨n, (planProp_exact place _ n g1).2 (.inr g2)⟩
      obtain ⟨f1, f2⟩ := fillProps_exact hash (refNum L) (BitVec.ofNat 32 k) (hne cls (by simp)) (place := place)
        (hw cls) plan sh (fun x hx => ((classProps_ok e).2.1 x hx).2)
      by_cases hb : ∃ n, BadOptionals (valuesOf (classInsts (L.map Prod.snd) cls) n)
      · refine ⟨fun h => ?_, fun _ => ?_⟩
        · obtain ⟨n, hb⟩ := hb
          exact absurd hb (h cls (by simp) n)
        · rw [f2 (hbad.1 hb)]
          rfl
      · have hok := f1 (by
          intro x hx hk
          exact hb (hbad.2 ⟨x, hx, hk⟩))
        rcases h2 : fillProps hash (refNum L) (BitVec.ofNat 32 k) (classInsts (L.map Prod.snd) cls)
            plan sh with ⟨xs, sh1⟩ | e | _
        · simp only [Res.ok_bind]
          obtain ⟨i1, i2⟩ := ih (k + 1) sh1 (fun cls h => hne cls (by simp [h]))
          refine ⟨fun h => isOk_bind (i1 fun cls hc => h cls (by simp [hc])) fun _ => trivial, ?_⟩
          rintro ⟨cls', hc, n, hb'⟩
          rcases List.mem_cons.1 hc with rfl | hc
          · exact absurd ⟨n, hb'⟩ hb
          · have := i2 ⟨cls', hc, n, hb'⟩
            simp only [chunkOf] at this
            rw [this]
            rfl
        · rw [h2] at hok; exact hok.elim
        · rw [h2] at hok; exact hok.elim

end Rbxl

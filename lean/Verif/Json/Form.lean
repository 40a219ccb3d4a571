import Verif.Json.Finite
import Verif.Spec.JsonForm
/-!
# The JSON form of a structure of instances
-/
namespace Json
open Go Rbxfile Spec Rbxlx

variable {gen : Nat → Bytes} {fuel : Nat} {it : Iter}

theorem typeName_eq (t : Ty) : typeString t.code = str (JsonForm.typeName t) := by cases t <;> decide

theorem openBase64_eq (s : Bytes) : JVal.str (openBase64 s) = JsonForm.binary s := by
  unfold openBase64 JsonForm.binary
  rw [show s.length / 3 * 3 = s.length - s.length % 3 by omega]

/-- The references a value was written with are those of any later state. -/
theorem valueTo_form (hgen : ∀ k, isEmptyReference (gen k) = false) : ∀ (v : Value Nat) {st st' fin : RefState Nat} {j : JVal},
    valueTo gen fuel v st = .ok (j, st') → Ext st' fin → j = JsonForm.value (JsonForm.reference fin.heap) v
  | .optional t (some v), st, st', fin, j, h, he => by
    simp only [valueTo] at h
    split at h
    · rename_i j1 st1 h1
      simp only [Res.ok.injEq, Prod.mk.injEq] at h
      obtain ⟨rfl, rfl⟩ := h
      have := valueTo_form hgen v h1 he
      rw [JsonForm.value, ← this]; rfl
    · cases h
    · cases h
  | .optional t none, st, st', fin, j, h, he => by cases h; rfl
  | .reference q, st, st', fin, j, h, he => by
    simp only [valueTo] at h
    split at h
    · rename_i r st1 h1
      simp only [Res.ok.injEq, Prod.mk.injEq] at h
      obtain ⟨rfl, rfl⟩ := h
      obtain ⟨-, h2, h3⟩ := getRef_ext hgen h1
      cases q with
      | none => rw [h2 rfl]; rfl
      | some p =>
        obtain ⟨-, -, a, ha, hr⟩ := he.marked _ _ (h3 p rfl)
        rw [JsonForm.value, JsonForm.reference, ha]
        simp [hr]
    · cases h
    · cases h
  | .string _, st, st', fin, j, h, he => by cases h; rfl
  | .binaryString _, st, st', fin, j, h, he => by cases h; exact openBase64_eq _
  | .protectedString _, st, st', fin, j, h, he => by cases h; rfl
  | .content _, st, st', fin, j, h, he => by cases h; rfl
  | .bool _, st, st', fin, j, h, he => by cases h; rfl
  | .int _, st, st', fin, j, h, he => by cases h; rfl
  | .float _, st, st', fin, j, h, he => by cases h; rfl
  | .double _, st, st', fin, j, h, he => by cases h; rfl
  | .udim _, st, st', fin, j, h, he => by cases h; rfl
  | .udim2 .., st, st', fin, j, h, he => by cases h; rfl
  | .ray .., st, st', fin, j, h, he => by cases h; rfl
  | .faces .., st, st', fin, j, h, he => by cases h; rfl
  | .axes .., st, st', fin, j, h, he => by cases h; rfl
  | .brickColor _, st, st', fin, j, h, he => by cases h; rfl
  | .color3 _, st, st', fin, j, h, he => by cases h; rfl
  | .vector2 _, st, st', fin, j, h, he => by cases h; rfl
  | .vector3 _, st, st', fin, j, h, he => by cases h; rfl
  | .cframe .., st, st', fin, j, h, he => by cases h; rfl
  | .token _, st, st', fin, j, h, he => by cases h; rfl
  | .vector3int16 .., st, st', fin, j, h, he => by cases h; rfl
  | .vector2int16 .., st, st', fin, j, h, he => by cases h; rfl
  | .numberSequence _, st, st', fin, j, h, he => by cases h; rfl
  | .colorSequence _, st, st', fin, j, h, he => by cases h; rfl
  | .numberRange .., st, st', fin, j, h, he => by cases h; rfl
  | .rect .., st, st', fin, j, h, he => by cases h; rfl
  | .physicalProperties .., st, st', fin, j, h, he => by cases h; rfl
  | .color3uint8 .., st, st', fin, j, h, he => by cases h; rfl
  | .int64 _, st, st', fin, j, h, he => by cases h; rfl
  | .sharedString _, st, st', fin, j, h, he => by cases h; exact openBase64_eq _
  | .uniqueId .., st, st', fin, j, h, he => by cases h; rfl
  | .font .., st, st', fin, j, h, he => by cases h; rfl

theorem propsTo_form (hgen : ∀ k, isEmptyReference (gen k) = false) : ∀ (ps : List (Bytes × Value Nat))
    {st st' fin : RefState Nat} {js : List (Bytes × JVal)}, propsTo gen fuel ps st = .ok (js, st') → Ext st' fin →
    Ext st st' ∧ js = ps.map fun x => (x.1, JsonForm.property fin.heap x.2)
  | [], st, st', fin, js, h, he => by cases h; exact ⟨.refl _, rfl⟩
  | (name, v) :: ps, st, st', fin, js, h, he => by
    rw [propsTo] at h
    obtain ⟨⟨j, st1⟩, h1, h⟩ := Res.bind_eq_ok.1 h
    obtain ⟨⟨js1, st2⟩, h2, h⟩ := Res.bind_eq_ok.1 h
    simp only [Res.pure_eq, Res.ok.injEq, Prod.mk.injEq] at h h2
    obtain ⟨rfl, rfl⟩ := h
    obtain ⟨e2, hj⟩ := propsTo_form hgen ps h2 he
    refine ⟨(valueTo_ext hgen v h1).trans e2, ?_⟩
    rw [List.map_cons, ← hj, valueTo_form hgen v h1 (e2.trans he), typeName_eq]
    rfl

theorem listTo_extends (hgen : ∀ k, isEmptyReference (gen k) = false) : ∀ (depth : Nat) (ps : List Nat) (st st' : RefState Nat)
    (js : List JVal), listTo (instTo gen fuel it depth) ps st = .ok (js, st') → Ext st st' := by
  intro depth
  induction depth with
  | zero =>
    intro ps st st' js e
    cases ps with
    | nil => cases e; exact .refl _
    | cons p ps => simp only [listTo, instTo] at e; cases e
  | succ d ihd =>
    intro ps
    induction ps with
    | nil => intro st st' js e; cases e; exact .refl _
    | cons p ps ih =>
      intro st st' js e
      rw [listTo] at e
      obtain ⟨⟨j, st1⟩, e1, e⟩ := Res.bind_eq_ok.1 e
      obtain ⟨⟨js1, st2⟩, e2, e⟩ := Res.bind_eq_ok.1 e
      cases e
      rw [instTo] at e1
      split at e1
      · cases e1
      · obtain ⟨⟨r, st3⟩, e3, e1⟩ := Res.bind_eq_ok.1 e1
        obtain ⟨⟨props, st4⟩, e4, e1⟩ := Res.bind_eq_ok.1 e1
        obtain ⟨⟨kids, st5⟩, e5, e1⟩ := Res.bind_eq_ok.1 e1
        cases e1
        exact ((((getRef_ext hgen e3).1.trans (propsTo_form hgen _ e4 (.refl _)).1).trans (ihd _ _ _ _ e5)).trans (ih _ _ _ e2))

/-- The references of the instances that are written are marked. -/
def AllMarked (fin : RefState Nat) (l : List Nat) : Prop := ∀ p ∈ l, Marked fin p (JsonForm.reference fin.heap p)

theorem listTo_form (hgen : ∀ k, isEmptyReference (gen k) = false) {h : Heap Nat} {fin : RefState Nat} :
    ∀ (depth : Nat) (ps : List Nat) (st st' : RefState Nat) (js : List JVal), SameBut h st.heap → SameBut st.heap h →
    listTo (instTo gen fuel it depth) ps st = .ok (js, st') → Ext st' fin →
    SameBut st'.heap h ∧ JsonForm.Instances fin.heap ps js ∧ ∃ l, Forest h ps l ∧ AllMarked fin (l.map Prod.fst) := by
  intro depth
  induction depth with
  | zero =>
    intro ps st st' js hs hb e he
    cases ps with
    | nil => cases e; exact ⟨hb, .nil, [], .nil, nofun⟩
    | cons p ps => simp only [listTo, instTo] at e; cases e
  | succ d ihd =>
    intro ps
    induction ps with
    | nil => intro st st' js hs hb e he; cases e; exact ⟨hb, .nil, [], .nil, nofun⟩
    | cons p ps ih =>
      intro st st' js hs hb e he
      rw [listTo] at e
      obtain ⟨⟨j, st1⟩, e1, e⟩ := Res.bind_eq_ok.1 e
      obtain ⟨⟨js1, st2⟩, e2, e⟩ := Res.bind_eq_ok.1 e
      cases e
      rw [instTo] at e1
      split at e1
      · cases e1
      · rename_i inst hp
        obtain ⟨⟨r, st3⟩, e3, e1⟩ := Res.bind_eq_ok.1 e1
        obtain ⟨⟨props, st4⟩, e4, e1⟩ := Res.bind_eq_ok.1 e1
        obtain ⟨⟨kids, st5⟩, e5, e1⟩ := Res.bind_eq_ok.1 e1
        cases e1
        have x2 := listTo_extends hgen _ _ _ _ _ e2
        have x5 := listTo_extends hgen _ _ _ _ _ e5
        obtain ⟨x4, hprops⟩ := propsTo_form hgen _ e4 ((x5.trans x2).trans he)
        obtain ⟨x3, -, hm⟩ := getRef_ext hgen e3
        obtain ⟨r0, hr0⟩ := hb p inst hp
        obtain ⟨k1, kform, lb, k2, kall⟩ := ihd _ _ _ _ (hs.trans (x3.trans x4).heap)
          (((propsTo_back hgen _ e4).trans (ref_back hgen e3)).trans hb) e5 (x2.trans he)
        obtain ⟨k3, rform, lr, k4, rall⟩ := ih _ _ _ (hs.trans ((x3.trans x4).trans x5).heap) k1 e2 he
        have hmark : Marked fin p r := (((x4.trans x5).trans x2).trans he).marked _ _ (hm p rfl)
        obtain ⟨r', hr'⟩ := ((((x3.trans x4).trans x5).trans x2).trans he).heap p inst hp
        have hrr : JsonForm.reference fin.heap p = r ∧ r' = r := by
          obtain ⟨-, -, a, ha, har⟩ := hmark
          rw [hr'] at ha
          cases ha
          exact ⟨by rw [JsonForm.reference, hr']; exact har, har⟩
        refine ⟨k3, ?_, _, .cons hr0 k2 k4, ?_⟩
        · obtain ⟨-, rfl⟩ := hrr
          refine .cons (inst := { inst with reference := r' }) hr' ?_ kform rform
          rw [hprops]
          exact (it.perm _ _).map _
        · intro q hq
          simp only [List.map_cons, List.map_append, List.mem_cons, List.mem_append] at hq
          rcases hq with rfl | hq | hq
          · rw [hrr.1]; exact hmark
          · exact kall q hq
          · exact rall q hq

theorem rootTo_form (hgen : ∀ k, isEmptyReference (gen k) = false) {h : Heap Nat} {pos : Nat} {root : Root Nat} {j : JVal}
    {h1 : Heap Nat} (e : rootTo gen fuel it h pos root = .ok (j, h1)) :
    ∃ js l, j = JsonForm.object [("rbxfile_version", JsonForm.whole 0), ("instances", .arr js)] ∧
      JsonForm.Instances h1 root.instances js ∧ SameBut h h1 ∧ SameBut h1 h ∧ Forest h root.instances l ∧
      ∀ p ∈ l.map Prod.fst, isEmptyReference (JsonForm.reference h1 p) = false ∧
        ∀ q ∈ l.map Prod.fst, JsonForm.reference h1 p = JsonForm.reference h1 q → p = q := by
  unfold rootTo at e
  obtain ⟨⟨js, st⟩, e1, e⟩ := Res.bind_eq_ok.1 e
  cases e
  obtain ⟨h2, h3, l, h4, h5⟩ := listTo_form hgen _ _ _ _ _ (.refl h) (.refl h) e1 (.refl _)
  refine ⟨js, l, rfl, h3, (listTo_extends hgen _ _ _ _ _ e1).heap, h2, h4, fun p hp => ⟨(h5 p hp).1, fun q hq he => ?_⟩⟩
  have a := (h5 p hp).2.1
  have b := (h5 q hq).2.1
  rw [he, b] at a
  exact (Option.some.inj a).symm

/-! ## References that are settled are kept -/

/-- A property of states that getting a reference preserves. -/
def GetKeeps (gen : Nat → Bytes) (fuel : Nat) (I : RefState Nat → Prop) : Prop :=
  ∀ st q r st', I st → getRef gen fuel st q = .ok (r, st') → I st'

theorem valueTo_keeps {I : RefState Nat → Prop} (hk : GetKeeps gen fuel I) (v : Value Nat) :
    ∀ {st st' : RefState Nat} {j : JVal}, I st → valueTo gen fuel v st = .ok (j, st') → I st' := by
  generalize hn : sizeOf v = n
  induction n using Nat.strongRecOn generalizing v with
  | _ n ih =>
    intro st st' j hi h
    rcases valueTo_cases (gen := gen) (fuel := fuel) v st with ⟨q, rfl⟩ | ⟨t, w, rfl⟩ | ⟨j1, hj⟩
    · simp only [valueTo] at h
      split at h
      · rename_i r st1 h1
        simp only [Res.ok.injEq, Prod.mk.injEq] at h
        obtain ⟨-, rfl⟩ := h
        exact hk _ _ _ _ hi h1
      · cases h
      · cases h
    · simp only [valueTo] at h
      split at h
      · rename_i j1 st1 h1
        simp only [Res.ok.injEq, Prod.mk.injEq] at h
        obtain ⟨-, rfl⟩ := h
        exact ih (sizeOf w) (by rw [← hn]; simp; omega) w rfl hi h1
      · cases h
      · cases h
    · rw [hj] at h; cases h; exact hi

theorem propsTo_keeps {I : RefState Nat → Prop} (hk : GetKeeps gen fuel I) : ∀ (ps : List (Bytes × Value Nat))
    {st st' : RefState Nat} {js : List (Bytes × JVal)}, I st → propsTo gen fuel ps st = .ok (js, st') → I st'
  | [], st, st', js, hi, h => by cases h; exact hi
  | (n, v) :: ps, st, st', js, hi, h => by
    rw [propsTo] at h
    obtain ⟨⟨j, st1⟩, h1, h⟩ := Res.bind_eq_ok.1 h
    obtain ⟨⟨js1, st2⟩, h2, h⟩ := Res.bind_eq_ok.1 h
    cases h
    exact propsTo_keeps hk ps (valueTo_keeps hk v hi h1) h2

theorem listTo_keeps {I : RefState Nat → Prop} (hk : GetKeeps gen fuel I) : ∀ (depth : Nat) (ps : List Nat) (st st' : RefState Nat)
    (js : List JVal), I st → listTo (instTo gen fuel it depth) ps st = .ok (js, st') → I st' := by
  intro depth
  induction depth with
  | zero =>
    intro ps st st' js hi e
    cases ps with
    | nil => cases e; exact hi
    | cons p ps => simp only [listTo, instTo] at e; cases e
  | succ d ihd =>
    intro ps
    induction ps with
    | nil => intro st st' js hi e; cases e; exact hi
    | cons p ps ih =>
      intro st st' js hi e
      rw [listTo] at e
      obtain ⟨⟨j, st1⟩, e1, e⟩ := Res.bind_eq_ok.1 e
      obtain ⟨⟨js1, st2⟩, e2, e⟩ := Res.bind_eq_ok.1 e
      cases e
      rw [instTo] at e1
      split at e1
      · cases e1
      · obtain ⟨⟨r, st3⟩, e3, e1⟩ := Res.bind_eq_ok.1 e1
        obtain ⟨⟨props, st4⟩, e4, e1⟩ := Res.bind_eq_ok.1 e1
        obtain ⟨⟨kids, st5⟩, e5, e1⟩ := Res.bind_eq_ok.1 e1
        cases e1
        exact ih _ _ _ (ihd _ _ _ _ (propsTo_keeps hk _ (hk _ _ _ _ hi e3) e4) e5) e2

theorem settled_keeps {h : Heap Nat} (hs : JsonForm.Distinct h) : GetKeeps gen fuel fun st =>
    st.heap = h ∧ ∀ r p, st.refs.at r = some p → ∃ a, h.get? p = some a ∧ a.reference = r := by
  rintro st q r st' ⟨rfl, hr⟩ hg
  cases q with
  | none => cases hg; exact ⟨rfl, hr⟩
  | some p =>
    simp only [getRef] at hg
    split at hg
    · cases hg
    · rename_i inst hp
      split at hg
      · rename_i hc
        exfalso
        simp only [hs.1 p inst hp, Bool.false_or, Bool.and_eq_true, Option.isSome_iff_exists, decide_eq_true_eq] at hc
        obtain ⟨⟨q, hq⟩, hne⟩ := hc
        obtain ⟨b, hb, hbr⟩ := hr _ _ hq
        rw [hs.2 q p b inst hb hp hbr] at hq
        exact hne hq
      · cases hg
        refine ⟨rfl, fun r' q hq => ?_⟩
        rw [References.at_set] at hq
        split at hq
        · rename_i e
          cases hq
          exact ⟨inst, hp, e.symm⟩
        · exact hr r' q hq

theorem rootTo_settled {h : Heap Nat} (hs : JsonForm.Distinct h) {pos : Nat} {root : Root Nat} {j : JVal} {h1 : Heap Nat}
    (e : rootTo gen fuel it h pos root = .ok (j, h1)) : h1 = h := by
  unfold rootTo at e
  obtain ⟨⟨js, st⟩, e1, e⟩ := Res.bind_eq_ok.1 e
  cases e
  exact (listTo_keeps (settled_keeps hs) _ _ _ _ _ ⟨rfl, fun r p hr => by simp [References.at] at hr⟩ e1).1

end Json

import Verif.Json.Form
import Verif.Spec.SameJson
import Verif.Rbxlx.SameXml
/-!
# Encoding a tree as JSON once more
-/
namespace Json
open Go Rbxfile Spec Rbxlx

variable {gen : Nat → Bytes} {fuel : Nat} {it : Iter}

/-! ## The same form -/

theorem sameJson_arr {js js' : List JVal} (h : List.Forall₂ SameJson js js') (pre : List JVal) :
    SameJson (.arr (pre ++ js)) (.arr (pre ++ js')) := by
  induction h generalizing pre with
  | nil => exact .refl _
  | @cons j j' js js' h1 _ ih =>
    refine .trans (.item pre js h1) ?_
    have := ih (pre ++ [j'])
    simpa using this

theorem instances_same {h : Heap Nat} {ps : List Nat} {js : List JVal} (h1 : JsonForm.Instances h ps js) :
    ∀ {js' : List JVal}, JsonForm.Instances h ps js' → List.Forall₂ SameJson js js' := by
  induction h1 with
  | nil => intro js' h2; cases h2; exact .nil
  | @cons p inst props kids ps js hp hprops _ _ ihk ihr =>
    intro js' h2
    cases h2 with
    | @cons _ inst' props' kids' _ js1 hp' hprops' hk hr =>
    rw [hp] at hp'; cases hp'
    refine .cons ?_ (ihr hr)
    have e1 : SameJson (.obj props) (.obj props') := .order (hprops.trans hprops'.symm)
    have e2 : SameJson (.arr kids) (.arr kids') := by simpa using sameJson_arr (ihk hk) []
    refine .trans (.field [(str "class_name", .str inst.className), (str "reference", .str inst.reference),
      (str "is_service", .bool inst.isService)] [(str "children", .arr kids)] (str "properties") e1) ?_
    exact .field [(str "class_name", .str inst.className), (str "reference", .str inst.reference),
      (str "is_service", .bool inst.isService), (str "properties", .obj props')] [] (str "children") e2

/-! ## References that are settled -/

section
variable {h1 : Heap Nat} {K : Nat → Prop} (hK : Known h1 K)
include hK

theorem valueTo_known : ∀ (v : Value Nat) (st : RefState Nat), Unchanged h1 K ⟨st, []⟩ → (∀ q, Mentions v q → K q) →
    ∃ j st', valueTo gen fuel v st = .ok (j, st') ∧ Unchanged h1 K ⟨st', []⟩ := by
  intro v
  generalize hn : sizeOf v = m
  induction m using Nat.strongRecOn generalizing v with
  | _ m ih =>
    intro st hu hq
    rcases valueTo_cases (gen := gen) (fuel := fuel) v st with ⟨q, rfl⟩ | ⟨t, w, rfl⟩ | ⟨j1, hj⟩
    · cases q with
      | none => exact ⟨.str [], st, by simp only [valueTo, getRef], hu⟩
      | some p =>
        have hp := hq p (.reference p)
        obtain ⟨a, ha, -⟩ := hK.present p hp
        obtain ⟨refs, e1, e2⟩ := getRef_known hK gen fuel hu hp ha
        exact ⟨.str a.reference, refs, by simp only [valueTo, e1], e2 [] Map.ok_nil⟩
    · obtain ⟨j, st', e, hl'⟩ := ih (sizeOf w) (by rw [← hn]; simp; omega) w rfl st hu fun q h => hq q (.optional t w q h)
      exact ⟨.obj [(str "type", .type t), (str "value", j)], st', by simp only [valueTo, e], hl'⟩
    · exact ⟨j1, st, hj, hu⟩

theorem propsTo_known : ∀ (ps : List (Bytes × Value Nat)) (st : RefState Nat), Unchanged h1 K ⟨st, []⟩ →
    (∀ x ∈ ps, ∀ q, Mentions x.2 q → K q) →
    ∃ js st', propsTo gen fuel ps st = .ok (js, st') ∧ Unchanged h1 K ⟨st', []⟩
  | [], st, hu, _ => ⟨[], st, rfl, hu⟩
  | (m, v) :: ps, st, hu, hq => by
    obtain ⟨j, st1, e1, hu1⟩ := valueTo_known (gen := gen) (fuel := fuel) hK v st hu (hq (m, v) (by simp))
    obtain ⟨js, st2, e2, hu2⟩ := propsTo_known ps st1 hu1 fun x hx => hq x (by simp [hx])
    have e : propsTo gen fuel ((m, v) :: ps) st = .ok ((m, propObj v j) :: js, st2) := by
      rw [propsTo]
      simp only [e1, Res.ok_bind, e2, Res.pure_eq]
      rfl
    exact ⟨_, st2, e, hu2⟩

theorem listTo_known {ps : List Nat} {l : Map Nat (Inst Nat)} (f : Forest h1 ps l) (hm : ∀ p, JsonMentioned l p → K p) :
    ∀ (depth : Nat) (st : RefState Nat) (anc : List Nat), anc.Nodup → (∀ q ∈ anc, (h1.get? q).isSome ∧ q ∉ l.map Prod.fst) →
    h1.length + 1 ≤ depth + anc.length → Unchanged h1 K ⟨st, []⟩ →
    ∃ js st', listTo (instTo gen fuel it depth) ps st = .ok (js, st') ∧ Unchanged h1 K ⟨st', []⟩ := by
  induction f with
  | nil => intro depth st anc _ _ _ hu; exact ⟨[], st, rfl, hu⟩
  | @cons p ps inst below rest hp f1 f2 ih1 ih2 =>
    intro depth st anc hnd hanc hd hu
    have hlong := path_length hnd fun q hq => (hanc q hq).1
    have sub : ∀ {l1 l2 : Map Nat (Inst Nat)} {x : Nat}, (∀ y ∈ l1, y ∈ l2) → JsonMentioned l1 x → JsonMentioned l2 x := by
      intro l1 l2 x hs hm
      rcases hm with hm | ⟨y, hy, hn⟩
      · obtain ⟨y, hy, rfl⟩ := List.mem_map.1 hm
        exact .inl (List.mem_map.2 ⟨y, hs y hy, rfl⟩)
      · exact .inr ⟨y, hs y hy, hn⟩
    cases depth with
    | zero => omega
    | succ depth =>
    obtain ⟨st1, e1, hu1⟩ := getRef_known hK gen fuel hu (hm p (.inl (by simp))) hp
    have hu1 := hu1 [] Map.ok_nil
    obtain ⟨js, st2, e2, hu2⟩ := propsTo_known (gen := gen) (fuel := fuel) hK (it.run [p] inst.properties) st1 hu1
      fun x hx q hq => hm q (.inr ⟨(p, inst), by simp, x, (it.perm [p] inst.properties).mem_iff.1 hx, hq⟩)
    obtain ⟨kids, st3, e3, hu3⟩ := ih1 (fun x hx => hm x (sub (by simp +contextual) hx)) depth st2 (p :: anc)
      (List.nodup_cons.2 ⟨fun hm => (hanc p hm).2 (by simp), hnd⟩) (by
        intro q hq
        rcases List.mem_cons.1 hq with rfl | hq
        · exact ⟨by rw [hp]; rfl, forest_acyclic hp f1⟩
        · exact ⟨(hanc q hq).1, fun hm => (hanc q hq).2 (by
            simp only [List.map_cons, List.map_append, List.mem_cons, List.mem_append]; exact .inr (.inl hm))⟩)
      (by rw [List.length_cons]; omega) hu2
    obtain ⟨js4, st4, e4, hu4⟩ := ih2 (fun x hx => hm x (sub (by simp +contextual) hx)) (depth + 1) st3 anc hnd
      (fun q hq => ⟨(hanc q hq).1, fun hm => (hanc q hq).2 (by
        simp only [List.map_cons, List.map_append, List.mem_cons, List.mem_append]; exact .inr (.inr hm))⟩) hd hu3
    refine ⟨instObj inst inst.reference js kids :: js4, st4, ?_, hu4⟩
    have hst : st.heap = h1 := hu.heap
    rw [listTo, instTo, hst]
    simp only [hp, e1, Res.ok_bind]
    rw [e2]
    simp only [Res.ok_bind, e3, Res.pure_eq]
    rw [e4]
    rfl

end

/-- A tree with different References is written, and nothing is changed. -/
theorem rootTo_known {h : Heap Nat} {root : Root Nat} {l : Map Nat (Inst Nat)} (f : Forest h root.instances l)
    (hd : JsonDistinct h l) (pos : Nat) : ∃ j, rootTo gen fuel it h pos root = .ok (j, h) := by
  have K : Known h (JsonMentioned l) := ⟨hd.present, hd.different⟩
  obtain ⟨js, st, e1, e2⟩ := listTo_known (gen := gen) (fuel := fuel) (it := it) K f (fun _ h => h) (h.length + 1) ⟨h, [], pos⟩ []
    (by simp) (by simp) (by simp) ⟨rfl, (fun r p hp => by cases hp), Map.ok_nil⟩
  unfold rootTo
  rw [e1]
  have : st.heap = h := e2.heap
  exact ⟨_, by rw [Res.ok_bind, ← this]; rfl⟩

/-! ## After writing, References are settled -/

theorem valueTo_marks (hgen : ∀ k, isEmptyReference (gen k) = false) : ∀ (v : Value Nat) {st st' : RefState Nat} {j : JVal},
    valueTo gen fuel v st = .ok (j, st') → ∀ q, Mentions v q → ∃ r, Marked st' q r := by
  intro v st st' j h q hm
  induction hm generalizing st st' j with
  | reference q =>
    simp only [valueTo] at h
    split at h
    · rename_i r st1 h1
      simp only [Res.ok.injEq, Prod.mk.injEq] at h
      obtain ⟨-, rfl⟩ := h
      exact ⟨r, (getRef_ext hgen h1).2.2 q rfl⟩
    · cases h
    · cases h
  | optional t v q _ ih =>
    simp only [valueTo] at h
    split at h
    · rename_i j1 st1 h1
      simp only [Res.ok.injEq, Prod.mk.injEq] at h
      obtain ⟨-, rfl⟩ := h
      exact ih h1
    · cases h
    · cases h

theorem propsTo_marks (hgen : ∀ k, isEmptyReference (gen k) = false) : ∀ (ps : List (Bytes × Value Nat)) {st st' : RefState Nat}
    {js : List (Bytes × JVal)}, propsTo gen fuel ps st = .ok (js, st') → ∀ x ∈ ps, ∀ q, Mentions x.2 q → ∃ r, Marked st' q r
  | [], _, _, _, _, x, hx, _, _ => by cases hx
  | (n, v) :: ps, st, st', js, h, x, hx, q, hq => by
    rw [propsTo] at h
    obtain ⟨⟨j, st1⟩, h1, h⟩ := Res.bind_eq_ok.1 h
    obtain ⟨⟨js1, st2⟩, h2, h⟩ := Res.bind_eq_ok.1 h
    cases h
    rcases List.mem_cons.1 hx with rfl | hx
    · obtain ⟨r, hr⟩ := valueTo_marks hgen v h1 q hq
      exact ⟨r, (propsTo_each hgen ps h2).1.marked _ _ hr⟩
    · exact propsTo_marks hgen ps h2 x hx q hq

theorem listTo_marks (hgen : ∀ k, isEmptyReference (gen k) = false) {fin : RefState Nat} :
    ∀ (depth : Nat) (ps : List Nat) (st st' : RefState Nat) (js : List JVal),
    listTo (instTo gen fuel it depth) ps st = .ok (js, st') → Ext st' fin →
    ∃ l, Forest fin.heap ps l ∧ ∀ p, JsonMentioned l p → ∃ r, Marked fin p r := by
  intro depth
  induction depth with
  | zero =>
    intro ps st st' js e he
    cases ps with
    | nil => exact ⟨[], .nil, fun p hp => by rcases hp with hp | ⟨x, hx, -⟩ <;> simp at *⟩
    | cons p ps => simp only [listTo, instTo] at e; cases e
  | succ d ihd =>
    intro ps
    induction ps with
    | nil => intro st st' js e he; exact ⟨[], .nil, fun p hp => by rcases hp with hp | ⟨x, hx, -⟩ <;> simp at *⟩
    | cons p ps ih =>
      intro st st' js e he
      rw [listTo] at e
      obtain ⟨⟨j, st1⟩, e1, e⟩ := Res.bind_eq_ok.1 e
      obtain ⟨⟨js1, st2⟩, e2, e⟩ := Res.bind_eq_ok.1 e
      cases e
      rw [instTo] at e1
      split at e1
      · cases e1
      · rename_i inst hp
        obtain ⟨⟨r, st3⟩, e3, e1⟩ := Res.bind_eq_ok.1 e1
        obtain ⟨⟨props, st4⟩, e4, e1⟩ := Res.bind_eq_ok.1 e1
        obtain ⟨⟨kids, st5⟩, e5, e1⟩ := Res.bind_eq_ok.1 e1
        cases e1
        have x2 := listTo_extends hgen _ _ _ _ _ e2
        have x5 := listTo_extends hgen _ _ _ _ _ e5
        have x4 := (propsTo_each hgen _ e4).1
        obtain ⟨x3, -, hm⟩ := getRef_ext hgen e3
        obtain ⟨lb, fb, mb⟩ := ihd _ _ _ _ e5 (x2.trans he)
        obtain ⟨lr, fr, mr⟩ := ih _ _ _ e2 he
        obtain ⟨r', hr'⟩ := ((((x3.trans x4).trans x5).trans x2).trans he).heap p inst hp
        refine ⟨_, .cons hr' fb fr, ?_⟩
        rintro q (hq | ⟨x, hx, y, hy, hmq⟩)
        · simp only [List.map_cons, List.map_append, List.mem_cons, List.mem_append] at hq
          rcases hq with rfl | hq | hq
          · exact ⟨r, (((x4.trans x5).trans x2).trans he).marked _ _ (hm q rfl)⟩
          · exact mb q (.inl hq)
          · exact mr q (.inl hq)
        · simp only [List.mem_cons, List.mem_append] at hx
          rcases hx with rfl | hx | hx
          · obtain ⟨r1, hr1⟩ := propsTo_marks hgen _ e4 y ((it.perm [p] inst.properties).mem_iff.2 hy) q hmq
            exact ⟨r1, ((x5.trans x2).trans he).marked _ _ hr1⟩
          · exact mb q (.inr ⟨x, hx, y, hy, hmq⟩)
          · exact mr q (.inr ⟨x, hx, y, hy, hmq⟩)

/-- After a tree has been written, its instances and those it refers to have different References. -/
theorem rootTo_distinct (hgen : ∀ k, isEmptyReference (gen k) = false) {h : Heap Nat} {pos : Nat} {root : Root Nat} {j : JVal}
    {h1 : Heap Nat} (e : rootTo gen fuel it h pos root = .ok (j, h1)) : ∃ l, Forest h1 root.instances l ∧ JsonDistinct h1 l := by
  unfold rootTo at e
  obtain ⟨⟨js, st⟩, e1, e⟩ := Res.bind_eq_ok.1 e
  cases e
  obtain ⟨l, f, hm⟩ := listTo_marks hgen _ _ _ _ _ e1 (.refl _)
  refine ⟨l, f, fun p hp => ?_, fun p q a b hp hq ha hb e => ?_⟩
  · obtain ⟨r, h1, -, a, ha, rfl⟩ := hm p hp
    exact ⟨a, ha, h1⟩
  · obtain ⟨r, m⟩ := hm p hp
    obtain ⟨r', m'⟩ := hm q hq
    obtain ⟨-, -, a', ha', e1⟩ := id m
    obtain ⟨-, -, b', hb', e2⟩ := id m'
    rw [ha] at ha'; cases ha'
    rw [hb] at hb'; cases hb'
    rw [← e1, e] at m
    rw [← e2] at m'
    exact m.inj m'

/-- What is written of the same tree, if its References are settled, has the same form. -/
theorem rootTo_again {gen' : Nat → Bytes} {fuel' : Nat} {it' : Iter} (hgen : ∀ k, isEmptyReference (gen k) = false)
    (hgen' : ∀ k, isEmptyReference (gen' k) = false) {h : Heap Nat} {pos pos' : Nat} {root : Root Nat} {j : JVal} {h1 : Heap Nat}
    (e : rootTo gen fuel it h pos root = .ok (j, h1)) :
    ∃ j', rootTo gen' fuel' it' h1 pos' root = .ok (j', h1) ∧ SameJson j j' := by
  obtain ⟨l, f, hd⟩ := rootTo_distinct hgen e
  obtain ⟨j', e'⟩ := rootTo_known (gen := gen') (fuel := fuel') (it := it') f hd pos'
  obtain ⟨js, -, rfl, f1, -⟩ := rootTo_form hgen e
  obtain ⟨js', -, rfl, f2, -⟩ := rootTo_form hgen' e'
  refine ⟨_, e', ?_⟩
  have := sameJson_arr (instances_same f1 f2) []
  exact .field [(str "rbxfile_version", JsonForm.whole 0)] [] (str "instances") (by simpa using this)

end Json

import Verif.Json.Tree
/-!
# When the conversion from JSON interfaces panics
-/
namespace Json
open Go Rbxfile Spec

/-- The computation returns or panics. -/
def NoErr {α : Type} (x : Res α) : Prop := ∀ e, x ≠ .err e

theorem NoErr.ok {α : Type} (a : α) : NoErr (.ok a) := nofun
theorem NoErr.panic {α : Type} : NoErr (.panic : Res α) := nofun
theorem NoErr.bind {α β : Type} {x : Res α} {f : α → Res β} (h : NoErr x) (hf : ∀ a, NoErr (f a)) : NoErr (x >>= f) := by
  cases x with
  | ok a => exact hf a
  | err e => exact absurd rfl (h e)
  | panic => exact .panic

theorem num_noErr (m : List (Bytes × JVal)) (k : String) : NoErr (num m k) := by
  unfold num; split <;> nofun
theorem num32_noErr (m : List (Bytes × JVal)) (k : String) : NoErr (num32 m k) := by
  unfold num32; split <;> nofun
theorem boolean_noErr (m : List (Bytes × JVal)) (k : String) : NoErr (boolean m k) := by
  unfold boolean; split <;> nofun

/-- Chains of lookups do not fail with an error. -/
macro "no_err" : tactic => `(tactic| repeat' first
  | exact NoErr.ok _ | exact NoErr.panic | apply num_noErr | apply num32_noErr | apply boolean_noErr
  | refine NoErr.bind ?_ (fun _ => ?_) | assumption)

theorem toUDim_noErr (O : Overflow) (j : JVal) : NoErr (toUDim O j) := by
  unfold toUDim; split <;> no_err
theorem toVector3_noErr (j : JVal) : NoErr (toVector3 j) := by
  unfold toVector3; split <;> no_err
theorem toVector2_noErr (j : JVal) : NoErr (toVector2 j) := by
  unfold toVector2; split <;> no_err
theorem toColor3_noErr (j : JVal) : NoErr (toColor3 j) := by
  unfold toColor3; split <;> no_err
theorem toFloats_noErr : ∀ l, NoErr (toFloats l)
  | [] => .ok _
  | j :: l => by
    have := toFloats_noErr l
    cases j <;> simp only [toFloats] <;> no_err
theorem toNumberKeypoints_noErr : ∀ l, NoErr (toNumberKeypoints l)
  | [] => .ok _
  | j :: l => by
    have := toNumberKeypoints_noErr l
    cases j <;> simp only [toNumberKeypoints] <;> no_err
theorem toColorKeypoints_noErr : ∀ l, NoErr (toColorKeypoints l)
  | [] => .ok _
  | j :: l => by
    have := toColorKeypoints_noErr l
    have h2 := toColor3_noErr
    cases j <;> simp only [toColorKeypoints] <;> repeat' first | exact h2 _ | no_err | skip

theorem baseFrom_noErr {ρ : Type} (O : Overflow) (t : Ty) (j : JVal) : NoErr (baseFrom (ρ := ρ) O t j) := by
  unfold baseFrom
  split
  all_goals
    repeat' first
      | exact NoErr.ok _ | exact NoErr.panic | apply num_noErr | apply num32_noErr | apply boolean_noErr
      | apply toUDim_noErr | apply toVector3_noErr | apply toVector2_noErr | apply toColor3_noErr
      | apply toFloats_noErr | apply toNumberKeypoints_noErr | apply toColorKeypoints_noErr
      | refine NoErr.bind ?_ (fun _ => ?_)
      | split

mutual
theorem valueFrom_noErr {ρ : Type} (O : Overflow) (it : Iter) (t : Ty) : ∀ j, NoErr (valueFrom (ρ := ρ) O it t j)
  | .obj m => by
    rw [valueFrom]
    split
    · split
      · exact optionFrom_noErr O it _ m
      · exact .panic
    · exact baseFrom_noErr O t _
  | .null => by rw [valueFrom] <;> first | (split <;> first | exact .ok _ | exact baseFrom_noErr O t _) | nofun
  | .bool _ => by rw [valueFrom] <;> first | (split <;> first | exact .ok _ | exact baseFrom_noErr O t _) | nofun
  | .num _ => by rw [valueFrom] <;> first | (split <;> first | exact .ok _ | exact baseFrom_noErr O t _) | nofun
  | .str _ => by rw [valueFrom] <;> first | (split <;> first | exact .ok _ | exact baseFrom_noErr O t _) | nofun
  | .arr _ => by rw [valueFrom] <;> first | (split <;> first | exact .ok _ | exact baseFrom_noErr O t _) | nofun
  | .type _ => by rw [valueFrom] <;> first | (split <;> first | exact .ok _ | exact baseFrom_noErr O t _) | nofun
theorem optionFrom_noErr {ρ : Type} (O : Overflow) (it : Iter) (t : Ty) : ∀ m, NoErr (optionFrom (ρ := ρ) O it t m)
  | [] => by rw [optionFrom]; exact .ok _
  | (k, v) :: m => by
    by_cases hk : k = str "value"
    · rw [optionFrom.eq_def]
      simp only [hk, if_true]
      split
      · exact .ok _
      · split
        · exact .ok _
        · exact .panic
    · rw [optionFrom.eq_def]
      simp only [hk, if_false]
      exact optionFrom_noErr O it t m
end

theorem propFrom_noErr {O : Overflow} {it : Iter} (j : JVal) : NoErr (propFrom O it j) := by
  unfold propFrom
  split
  · simp only
    split
    · split
      · split
        · exact .ok _
        · exact .panic
      · exact .ok _
    · exact .ok _
    · rename_i h
      exact absurd h (valueFrom_noErr O it _ _ _)
    · exact .panic
  · exact .ok _

theorem propsFrom_noErr {O : Overflow} {it : Iter} {p : Nat} : ∀ ps s, NoErr (propsFrom O it p ps s)
  | [], s => .ok _
  | (n, j) :: ps, s => by
    rw [propsFrom]
    split
    · exact propsFrom_noErr ps _
    · exact propsFrom_noErr ps _
    · exact propsFrom_noErr ps _
    · rename_i h
      exact absurd h (propFrom_noErr _ _)
    · exact .panic

theorem fill_noErr {O : Overflow} {it : Iter} {j : JVal} {p : Nat} {c : Bytes} {s : JState} : NoErr (fill O it j p c s) := by
  unfold fill
  simp only
  split
  · exact propsFrom_noErr _ _
  · exact .ok _

mutual
theorem instFrom_noErr (O : Overflow) (it : Iter) : ∀ j s, NoErr (instFrom O it j s)
  | .obj m, s => by
    rw [instFrom]
    split
    · refine .bind fill_noErr fun _ => .bind (childrenField_noErr O it m _) fun _ => .ok _
    · exact .ok _
  | .null, s => by rw [instFrom] <;> first | exact .ok _ | nofun
  | .bool _, s => by rw [instFrom] <;> first | exact .ok _ | nofun
  | .num _, s => by rw [instFrom] <;> first | exact .ok _ | nofun
  | .str _, s => by rw [instFrom] <;> first | exact .ok _ | nofun
  | .arr _, s => by rw [instFrom] <;> first | exact .ok _ | nofun
  | .type _, s => by rw [instFrom] <;> first | exact .ok _ | nofun
theorem childrenField_noErr (O : Overflow) (it : Iter) : ∀ m s, NoErr (childrenField O it m s)
  | [], s => by rw [childrenField]; exact .ok _
  | (k, v) :: m, s => by
    by_cases hk : k = str "children"
    · rw [childrenField.eq_def]
      simp only [hk, if_true]
      split
      · exact childrenFrom_noErr O it _ s
      · exact .ok _
    · rw [childrenField.eq_def]
      simp only [hk, if_false]
      exact childrenField_noErr O it m s
theorem childrenFrom_noErr (O : Overflow) (it : Iter) : ∀ l s, NoErr (childrenFrom O it l s)
  | [], s => by rw [childrenFrom]; exact .ok _
  | j :: js, s => by
    rw [childrenFrom]
    split
    · exact childrenFrom_noErr O it js _
    · exact .panic
    · rename_i h
      exact absurd h (instFrom_noErr O it j s _)
    · exact .panic
end

theorem listFrom_noErr (O : Overflow) (it : Iter) : ∀ js s, NoErr (listFrom O it js s)
  | [], s => .ok _
  | j :: js, s => by
    rw [listFrom]
    exact .bind (instFrom_noErr O it j s) fun _ => .bind (listFrom_noErr O it js _) fun _ => .ok _

theorem rootFrom_noErr (O : Overflow) (it : Iter) (j : JVal) : NoErr (rootFrom O it j) := by
  unfold rootFrom
  split
  · split
    · split
      · exact .bind (listFrom_noErr O it _ _) fun _ => .ok _
      · exact .ok _
    · exact .ok _
  · exact .ok _

/-! ## Children -/

theorem NoErr.panic_of {α : Type} {x : Res α} (h : NoErr x) (hn : ∀ a, x ≠ .ok a) : x = .panic := by
  cases x with
  | ok a => exact absurd rfl (hn a)
  | err e => exact absurd rfl (h e)
  | panic => rfl

/-- An object with a class name is an instance. -/
theorem instFrom_class {O : Overflow} {it : Iter} {m : List (Bytes × JVal)} {cls : Bytes}
    (h : Map.get? m (str "class_name") = some (.str cls)) (s : JState) {o : Option Nat} {s' : JState}
    (hi : instFrom O it (.obj m) s = .ok (o, s')) : o.isSome := by
  rw [instFrom, h] at hi
  simp only at hi
  obtain ⟨s1, -, hi⟩ := Res.bind_eq_ok.1 hi
  obtain ⟨s2, -, hi⟩ := Res.bind_eq_ok.1 hi
  cases hi
  rfl

theorem childrenFrom_panic {O : Overflow} {it : Iter} : ∀ (l : List JVal),
    (∃ m cls, .obj m ∈ l ∧ Map.get? m (str "class_name") = some (.str cls)) → ∀ s, childrenFrom O it l s = .panic
  | [], ⟨m, cls, h, _⟩, s => by cases h
  | j :: js, ⟨m, cls, h, hc⟩, s => by
    refine (childrenFrom_noErr O it _ _).panic_of ?_
    intro s' hs
    rw [childrenFrom] at hs
    split at hs
    · rename_i s1 h1
      rcases List.mem_cons.1 h with e | h
      · rw [← e] at h1
        have := instFrom_class hc s h1
        cases this
      · rw [childrenFrom_panic js ⟨m, cls, h, hc⟩] at hs
        cases hs
    · cases hs
    · cases hs
    · cases hs

theorem childrenField_panic {O : Overflow} {it : Iter} {l : List JVal} (hl : ∀ s, childrenFrom O it l s = .panic) :
    ∀ (m : List (Bytes × JVal)), Map.get? m (str "children") = some (.arr l) → ∀ s, childrenField O it m s = .panic
  | [], h, s => by cases h
  | (k, v) :: m, h, s => by
    rw [childrenField.eq_def]
    simp only [Map.get?] at h
    split at h
    · rename_i e
      cases h
      simp only [e, if_true]
      exact hl s
    · rename_i e
      simp only [e, if_false]
      exact childrenField_panic hl m h s

theorem instFrom_panic {O : Overflow} {it : Iter} {m : List (Bytes × JVal)} {cls : Bytes} {l : List JVal}
    (hc : Map.get? m (str "class_name") = some (.str cls)) (hk : Map.get? m (str "children") = some (.arr l))
    (hl : ∃ m cls, .obj m ∈ l ∧ Map.get? m (str "class_name") = some (.str cls)) (s : JState) :
    instFrom O it (.obj m) s = .panic := by
  refine (instFrom_noErr O it _ _).panic_of ?_
  rintro ⟨o, s'⟩ hi
  rw [instFrom, hc] at hi
  simp only at hi
  obtain ⟨s1, -, hi⟩ := Res.bind_eq_ok.1 hi
  obtain ⟨s2, h2, hi⟩ := Res.bind_eq_ok.1 hi
  rw [childrenField_panic (childrenFrom_panic l hl) m hk] at h2
  cases h2

theorem listFrom_panic {O : Overflow} {it : Iter} : ∀ (l : List JVal), (∃ j ∈ l, ∀ s, instFrom O it j s = .panic) →
    ∀ s, listFrom O it l s = .panic
  | [], ⟨j, h, _⟩, s => by cases h
  | i :: l, ⟨j, h, hj⟩, s => by
    refine (listFrom_noErr O it _ _).panic_of ?_
    rintro r hr
    rw [listFrom] at hr
    obtain ⟨⟨o, s1⟩, h1, hr⟩ := Res.bind_eq_ok.1 hr
    obtain ⟨⟨o2, s2⟩, h2, hr⟩ := Res.bind_eq_ok.1 hr
    rcases List.mem_cons.1 h with rfl | h
    · rw [hj] at h1; cases h1
    · rw [listFrom_panic l ⟨j, h, hj⟩] at h2; cases h2

/-! ## Encoding a tree with children -/

section
variable {gen : Nat → Bytes} {fuel : Nat} {it : Iter}

/-- The encoder makes an object with a class name, whose children are as many as those of the instance. -/
theorem instTo_shape {depth p : Nat} {st st' : RefState Nat} {j : JVal} (h : instTo gen fuel it depth p st = .ok (j, st')) :
    ∃ inst r props kids st1 d, j = instObj inst r props kids ∧ depth = d + 1 ∧ st.heap.get? p = some inst ∧
      listTo (instTo gen fuel it d) inst.children st1 = .ok (kids, st') := by
  cases depth with
  | zero => cases h
  | succ d =>
    rw [instTo] at h
    split at h
    · cases h
    · rename_i inst hi
      obtain ⟨⟨r, st1⟩, h1, h⟩ := Res.bind_eq_ok.1 h
      obtain ⟨⟨props, st2⟩, h2, h⟩ := Res.bind_eq_ok.1 h
      obtain ⟨⟨kids, st3⟩, h3, h⟩ := Res.bind_eq_ok.1 h
      cases h
      exact ⟨inst, r, props, kids, st2, d, rfl, rfl, hi, h3⟩

theorem listTo_ext {f : Nat → RefState Nat → Res (JVal × RefState Nat)}
    (hf : ∀ p st st' j, f p st = .ok (j, st') → Ext st st') : ∀ {ps : List Nat} {js : List JVal} {st st' : RefState Nat},
    listTo f ps st = .ok (js, st') → Ext st st' ∧ Each (fun p j => ∃ a b, Ext st a ∧ f p a = .ok (j, b)) ps js
  | [], js, st, st', h => by cases h; exact ⟨.refl _, .nil⟩
  | p :: ps, js, st, st', h => by
    rw [listTo] at h
    obtain ⟨⟨j, st1⟩, h1, h⟩ := Res.bind_eq_ok.1 h
    obtain ⟨⟨js1, st2⟩, h2, h⟩ := Res.bind_eq_ok.1 h
    cases h
    obtain ⟨e, he⟩ := listTo_ext hf h2
    have e1 := hf _ _ _ _ h1
    exact ⟨e1.trans e, .cons ⟨st, st1, .refl _, h1⟩ (he.imp fun _ _ ⟨a, b, x, y⟩ => ⟨a, b, e1.trans x, y⟩)⟩

theorem instTo_ext (hgen : ∀ k, isEmptyReference (gen k) = false) : ∀ (depth p : Nat) (st st' : RefState Nat) (j : JVal),
    instTo gen fuel it depth p st = .ok (j, st') → Ext st st'
  | 0, p, st, st', j, h => by cases h
  | d + 1, p, st, st', j, h => by
    rw [instTo] at h
    split at h
    · cases h
    · obtain ⟨⟨r, st1⟩, h1, h⟩ := Res.bind_eq_ok.1 h
      obtain ⟨⟨props, st2⟩, h2, h⟩ := Res.bind_eq_ok.1 h
      obtain ⟨⟨kids, st3⟩, h3, h⟩ := Res.bind_eq_ok.1 h
      cases h
      exact ((getRef_ext hgen h1).1.trans (propsTo_each hgen _ h2).1).trans (listTo_ext (instTo_ext hgen d) h3).1

theorem listTo_each {f : Nat → RefState Nat → Res (JVal × RefState Nat)} : ∀ {ps : List Nat} {js : List JVal}
    {st st' : RefState Nat}, listTo f ps st = .ok (js, st') → Each (fun p j => ∃ a b, f p a = .ok (j, b)) ps js
  | [], js, st, st', h => by cases h; exact .nil
  | p :: ps, js, st, st', h => by
    rw [listTo] at h
    obtain ⟨⟨j, st1⟩, h1, h⟩ := Res.bind_eq_ok.1 h
    obtain ⟨⟨js1, st2⟩, h2, h⟩ := Res.bind_eq_ok.1 h
    cases h
    exact .cons ⟨st, st1, h1⟩ (listTo_each h2)

theorem instObj_class (inst : Inst Nat) (r : Bytes) (props : List (Bytes × JVal)) (kids : List JVal) :
    ∃ m, instObj inst r props kids = .obj m ∧ Map.get? m (str "class_name") = some (.str inst.className) ∧
      Map.get? m (str "children") = some (.arr kids) := ⟨_, rfl, rfl, rfl⟩

end

end Json

import Verif.Json.Values
import Verif.Rbxlx.TreeMain
import Verif.Props.Names
/-!
# Instances converted to JSON interfaces and back
-/
namespace Json
open Go Rbxfile Spec Rbxlx

/-! ## Encoding -/

section
variable {gen : Nat → Bytes} {fuel : Nat}

/-- A later state of the encoder: only references of instances changed, and registered references stay. -/
structure Ext (st st' : RefState Nat) : Prop where
  heap : SameBut st.heap st'.heap
  marked : ∀ p r, Marked st p r → Marked st' p r

theorem Ext.refl (st : RefState Nat) : Ext st st := ⟨.refl _, fun _ _ h => h⟩
theorem Ext.trans {a b c : RefState Nat} (h : Ext a b) (h' : Ext b c) : Ext a c :=
  ⟨h.heap.trans h'.heap, fun p r hm => h'.marked p r (h.marked p r hm)⟩

theorem getRef_ext (hgen : ∀ k, isEmptyReference (gen k) = false) {st st' : RefState Nat} {q : Option Nat} {r : Bytes}
    (h : getRef gen fuel st q = .ok (r, st')) :
    Ext st st' ∧ (q = none → r = []) ∧ ∀ p, q = some p → Marked st' p r := by
  cases q with
  | none =>
    simp only [getRef, Res.ok.injEq, Prod.mk.injEq] at h
    obtain ⟨rfl, rfl⟩ := h
    exact ⟨.refl _, fun _ => rfl, nofun⟩
  | some p =>
    obtain ⟨h1, h2, h3⟩ := getRef_step hgen h
    exact ⟨⟨h2, h3⟩, nofun, fun q hq => by cases hq; exact h1⟩

theorem valueTo_ext (hgen : ∀ k, isEmptyReference (gen k) = false) : ∀ (v : Value Nat) {st st' : RefState Nat} {j : JVal},
    valueTo gen fuel v st = .ok (j, st') → Ext st st'
  | .optional t (some v), st, st', j, h => by
    simp only [valueTo] at h
    split at h
    · rename_i j1 st1 h1
      simp only [Res.ok.injEq, Prod.mk.injEq] at h
      obtain ⟨-, rfl⟩ := h
      exact valueTo_ext hgen v h1
    · cases h
    · cases h
  | .optional t none, st, st', j, h => by cases h; exact .refl _
  | .reference q, st, st', j, h => by
    simp only [valueTo] at h
    split at h
    · rename_i r st1 h1
      simp only [Res.ok.injEq, Prod.mk.injEq] at h
      obtain ⟨-, rfl⟩ := h
      exact (getRef_ext hgen h1).1
    · cases h
    · cases h
  | .string _, st, st', j, h => by cases h; exact .refl _
  | .binaryString _, st, st', j, h => by cases h; exact .refl _
  | .protectedString _, st, st', j, h => by cases h; exact .refl _
  | .content _, st, st', j, h => by cases h; exact .refl _
  | .bool _, st, st', j, h => by cases h; exact .refl _
  | .int _, st, st', j, h => by cases h; exact .refl _
  | .float _, st, st', j, h => by cases h; exact .refl _
  | .double _, st, st', j, h => by cases h; exact .refl _
  | .udim _, st, st', j, h => by cases h; exact .refl _
  | .udim2 .., st, st', j, h => by cases h; exact .refl _
  | .ray .., st, st', j, h => by cases h; exact .refl _
  | .faces .., st, st', j, h => by cases h; exact .refl _
  | .axes .., st, st', j, h => by cases h; exact .refl _
  | .brickColor _, st, st', j, h => by cases h; exact .refl _
  | .color3 _, st, st', j, h => by cases h; exact .refl _
  | .vector2 _, st, st', j, h => by cases h; exact .refl _
  | .vector3 _, st, st', j, h => by cases h; exact .refl _
  | .cframe .., st, st', j, h => by cases h; exact .refl _
  | .token _, st, st', j, h => by cases h; exact .refl _
  | .vector3int16 .., st, st', j, h => by cases h; exact .refl _
  | .vector2int16 .., st, st', j, h => by cases h; exact .refl _
  | .numberSequence _, st, st', j, h => by cases h; exact .refl _
  | .colorSequence _, st, st', j, h => by cases h; exact .refl _
  | .numberRange .., st, st', j, h => by cases h; exact .refl _
  | .rect .., st, st', j, h => by cases h; exact .refl _
  | .physicalProperties .., st, st', j, h => by cases h; exact .refl _
  | .color3uint8 .., st, st', j, h => by cases h; exact .refl _
  | .int64 _, st, st', j, h => by cases h; exact .refl _
  | .sharedString _, st, st', j, h => by cases h; exact .refl _
  | .uniqueId .., st, st', j, h => by cases h; exact .refl _
  | .font .., st, st', j, h => by cases h; exact .refl _

/-- The object for a property. -/
def propObj (v : Value Nat) (j : JVal) : JVal := .obj [(str "type", .str (typeString v.type.code)), (str "value", j)]

/-- The property `x` is encoded as `y`; the references are those of the state `st`. -/
def PropJ (gen : Nat → Bytes) (fuel : Nat) (st : RefState Nat) (x : Bytes × Value Nat) (y : Bytes × JVal) : Prop :=
  x.1 = y.1 ∧ ∃ j, y.2 = propObj x.2 j ∧ (∃ st0 st1, valueTo gen fuel x.2 st0 = .ok (j, st1)) ∧
    (x.2 = .reference none → j = .str []) ∧ ∀ q, x.2 = .reference (some q) → ∃ r, j = .str r ∧ Marked st q r

theorem PropJ.mono {st st' : RefState Nat} (h : Ext st st') {x : Bytes × Value Nat} {y : Bytes × JVal}
    (hp : PropJ gen fuel st x y) : PropJ gen fuel st' x y := by
  obtain ⟨h1, j, h2, h3, h4, h5⟩ := hp
  refine ⟨h1, j, h2, h3, h4, fun q hq => ?_⟩
  obtain ⟨r, hr, hm⟩ := h5 q hq
  exact ⟨r, hr, h.marked _ _ hm⟩

theorem _root_.Spec.Each.imp {α β : Type} {R S : α → β → Prop} (h : ∀ a b, R a b → S a b) {as : List α} {bs : List β}
    (he : Each R as bs) : Each S as bs := by
  induction he with
  | nil => exact .nil
  | cons h1 _ ih => exact .cons (h _ _ h1) ih

theorem propsTo_each (hgen : ∀ k, isEmptyReference (gen k) = false) : ∀ (ps : List (Bytes × Value Nat))
    {st st' : RefState Nat} {js : List (Bytes × JVal)}, propsTo gen fuel ps st = .ok (js, st') →
    Ext st st' ∧ Each (PropJ gen fuel st') ps js
  | [], st, st', js, h => by
    simp only [propsTo, Res.ok.injEq, Prod.mk.injEq] at h
    obtain ⟨rfl, rfl⟩ := h
    exact ⟨.refl _, .nil⟩
  | (name, v) :: ps, st, st', js, h => by
    rw [propsTo] at h
    obtain ⟨⟨j, st1⟩, h1, h⟩ := Res.bind_eq_ok.1 h
    obtain ⟨⟨js1, st2⟩, h2, h⟩ := Res.bind_eq_ok.1 h
    simp only [Res.pure_eq, Res.ok.injEq, Prod.mk.injEq] at h h2
    obtain ⟨rfl, rfl⟩ := h
    have e1 := valueTo_ext hgen v h1
    obtain ⟨e2, he⟩ := propsTo_each hgen ps h2
    refine ⟨e1.trans e2, .cons ?_ he⟩
    refine PropJ.mono e2 ⟨rfl, j, rfl, ⟨st, st1, h1⟩, ?_, ?_⟩
    · intro hv
      have hv : v = .reference none := hv
      subst hv
      simp only [valueTo, getRef] at h1
      cases h1; rfl
    · intro q hv
      have hv : v = .reference (some q) := hv
      subst hv
      simp only [valueTo] at h1
      split at h1
      · rename_i r st3 h3
        simp only [Res.ok.injEq, Prod.mk.injEq] at h1
        obtain ⟨rfl, rfl⟩ := h1
        exact ⟨r, rfl, (getRef_ext hgen h3).2.2 q rfl⟩
      · cases h1
      · cases h1

/-- The object for an instance. -/
def instObj (inst : Inst Nat) (r : Bytes) (props : List (Bytes × JVal)) (kids : List JVal) : JVal :=
  .obj [(str "class_name", .str inst.className), (str "reference", .str r),
        (str "is_service", .bool inst.isService), (str "properties", .obj props), (str "children", .arr kids)]

/-- An instance without children is encoded as `j`. -/
def InstJ (gen : Nat → Bytes) (fuel : Nat) (it : Iter) (h : Heap Nat) (st : RefState Nat) (p : Nat) (j : JVal) : Prop :=
  ∃ inst r props, h.get? p = some inst ∧ j = instObj inst r props [] ∧ Marked st p r ∧
    Each (PropJ gen fuel st) (it.run [p] inst.properties) props

theorem InstJ.mono {it : Iter} {h : Heap Nat} {st st' : RefState Nat} (he : Ext st st') {p : Nat} {j : JVal}
    (hi : InstJ gen fuel it h st p j) : InstJ gen fuel it h st' p j := by
  obtain ⟨inst, r, props, h1, h2, h3, h4⟩ := hi
  exact ⟨inst, r, props, h1, h2, he.marked _ _ h3, h4.imp fun _ _ => PropJ.mono he⟩

theorem instTo_flat (hgen : ∀ k, isEmptyReference (gen k) = false) {it : Iter} {h : Heap Nat} {depth p : Nat}
    {inst : Inst Nat} (hp : h.get? p = some inst) (hc : inst.children = []) {st st' : RefState Nat}
    (hs : SameBut h st.heap) {j : JVal} (hj : instTo gen fuel it depth p st = .ok (j, st')) :
    Ext st st' ∧ InstJ gen fuel it h st' p j := by
  cases depth with
  | zero => cases hj
  | succ depth =>
    obtain ⟨r0, hr0⟩ := hs p inst hp
    rw [instTo, hr0] at hj
    simp only at hj
    obtain ⟨⟨r, st1⟩, h1, hj⟩ := Res.bind_eq_ok.1 hj
    obtain ⟨⟨props, st2⟩, h2, hj⟩ := Res.bind_eq_ok.1 hj
    simp only [hc, listTo, Res.ok_bind, Res.pure_eq, Res.ok.injEq, Prod.mk.injEq] at hj
    obtain ⟨rfl, rfl⟩ := hj
    obtain ⟨e1, -, m1⟩ := getRef_ext hgen h1
    obtain ⟨e2, he⟩ := propsTo_each hgen _ h2
    exact ⟨e1.trans e2, inst, r, props, hp, rfl, e2.marked _ _ (m1 p rfl), he⟩

theorem listTo_flat (hgen : ∀ k, isEmptyReference (gen k) = false) {it : Iter} {h : Heap Nat} {depth : Nat} :
    ∀ (ps : List Nat), (∀ p ∈ ps, ∃ inst, h.get? p = some inst ∧ inst.children = []) → ∀ {st st' : RefState Nat},
    SameBut h st.heap → ∀ {js : List JVal}, listTo (instTo gen fuel it depth) ps st = .ok (js, st') →
    Ext st st' ∧ Each (InstJ gen fuel it h st') ps js
  | [], _, st, st', _, js, hj => by
    simp only [listTo, Res.ok.injEq, Prod.mk.injEq] at hj
    obtain ⟨rfl, rfl⟩ := hj
    exact ⟨.refl _, .nil⟩
  | p :: ps, hp, st, st', hs, js, hj => by
    rw [listTo] at hj
    obtain ⟨⟨j, st1⟩, h1, hj⟩ := Res.bind_eq_ok.1 hj
    obtain ⟨⟨js1, st2⟩, h2, hj⟩ := Res.bind_eq_ok.1 hj
    simp only [Res.pure_eq, Res.ok.injEq, Prod.mk.injEq] at hj h2
    obtain ⟨rfl, rfl⟩ := hj
    obtain ⟨inst, hi, hc⟩ := hp p (by simp)
    obtain ⟨e1, i1⟩ := instTo_flat hgen hi hc hs h1
    obtain ⟨e2, i2⟩ := listTo_flat hgen ps (fun q hq => hp q (by simp [hq])) (hs.trans e1.heap) h2
    exact ⟨e1.trans e2, .cons (i1.mono e2) i2⟩
end

/-! ## Decoding properties -/

/-- The properties after the loop. -/
def applyOuts : List (Bytes × PropOut) → Map Bytes (Value Nat) → Map Bytes (Value Nat)
  | [], m => m
  | (n, .value v) :: os, m => applyOuts os (m.set n v)
  | (_, .skip) :: os, m => applyOuts os m
  | (_, .ref _) :: os, m => applyOuts os m

/-- The references the loop records. -/
def refOuts (p : Nat) (os : List (Bytes × PropOut)) : List (PropRef Nat) :=
  os.filterMap fun o => match o.2 with
    | .ref r => some ⟨some p, o.1, r⟩
    | _ => none

theorem set_set {κ ν : Type} [DecidableEq κ] (m : Map κ ν) (k : κ) (a b : ν) : (m.set k a).set k b = m.set k b := by
  induction m with
  | nil => simp [Map.set]
  | cons x m ih =>
    obtain ⟨k', v⟩ := x
    simp only [Map.set]
    split
    · simp [Map.set]
    · rename_i h; simp [Map.set, h, ih]

theorem set_get {κ ν : Type} [DecidableEq κ] {m : Map κ ν} {k : κ} {a : ν} (h : m.get? k = some a) : m.set k a = m := by
  induction m with
  | nil => simp at h
  | cons x m ih =>
    obtain ⟨k', v⟩ := x
    simp only [Map.get?] at h
    simp only [Map.set]
    split
    · rename_i hk; rw [if_pos hk] at h; cases h; rw [hk]
    · rename_i hk; rw [if_neg hk] at h; rw [ih h]

section
variable {O : Overflow} {it : Iter}

theorem propsFrom_eq {p : Nat} : ∀ {ps : List (Bytes × JVal)} {os : List (Bytes × PropOut)},
    Each (fun x o => x.1 = o.1 ∧ propFrom O it x.2 = .ok o.2) ps os → ∀ {s : JState} {i : Inst Nat},
    s.heap.get? p = some i → propsFrom O it p ps s = .ok { s with
      heap := s.heap.set p { i with properties := applyOuts os i.properties }
      propRefs := s.propRefs ++ refOuts p os } := by
  intro ps os he
  induction he with
  | nil =>
    intro s i hi
    simp [propsFrom, applyOuts, refOuts, set_get hi]
  | @cons x o ps os hx he ih =>
    intro s i hi
    obtain ⟨n, j⟩ := x
    obtain ⟨n', o⟩ := o
    obtain ⟨h1, h2⟩ := hx
    have h1 : n = n' := h1
    subst h1
    simp only at h2
    rw [propsFrom, h2]
    cases o with
    | skip => simp only; rw [ih hi]; simp [applyOuts, refOuts]
    | value v =>
      simp only
      rw [ih (i := { i with properties := i.properties.set n v })]
      · simp [applyOuts, refOuts, JState.update, hi, set_set]
      · simp [JState.update, hi]
    | ref r =>
      simp only
      have := ih (s := JState.mk s.heap s.refs (s.propRefs ++ [PropRef.mk (some p) n r])) (i := i) hi
      rw [this]; simp [applyOuts, refOuts]

theorem applyOuts_get (n : Bytes) : ∀ (os : List (Bytes × PropOut)) (m : Map Bytes (Value Nat)),
    (os.map Prod.fst).Nodup →
    (∀ v, (n, .value v) ∈ os → (applyOuts os m).get? n = some v) ∧
    ((∀ v, (n, .value v) ∉ os) → (applyOuts os m).get? n = m.get? n)
  | [], m, _ => ⟨nofun, fun _ => rfl⟩
  | (n', o) :: os, m, hnd => by
    simp only [List.map_cons, List.nodup_cons] at hnd
    cases o with
    | skip =>
      obtain ⟨h1, h2⟩ := applyOuts_get n os m hnd.2
      refine ⟨fun v hv => h1 v ?_, fun hv => h2 fun v hm => hv v (by simp [hm])⟩
      simpa using hv
    | ref r =>
      obtain ⟨h1, h2⟩ := applyOuts_get n os m hnd.2
      refine ⟨fun v hv => h1 v ?_, fun hv => h2 fun v hm => hv v (by simp [hm])⟩
      simpa using hv
    | value w =>
      obtain ⟨h1, h2⟩ := applyOuts_get n os (m.set n' w) hnd.2
      refine ⟨fun v hv => ?_, fun hv => ?_⟩
      · rcases List.mem_cons.1 hv with e | hm
        · cases e
          rw [applyOuts, h2, Map.get?_set_self]
          intro v hm
          exact hnd.1 (List.mem_map_of_mem (f := Prod.fst) hm)
        · exact h1 v hm
      · rw [applyOuts, h2 fun v hm => hv v (by simp [hm]), Map.get?_set_ne]
        rintro rfl
        exact hv w (by simp)

theorem outs_exist {P : Bytes × JVal → PropOut → Prop} : ∀ (ps : List (Bytes × JVal)),
    (∀ x ∈ ps, ∃ o, propFrom O it x.2 = .ok o ∧ P x o) →
    ∃ os, Each (fun x o => x.1 = o.1 ∧ propFrom O it x.2 = .ok o.2) ps os ∧ os.map Prod.fst = ps.map Prod.fst ∧
      (∀ x ∈ ps, ∃ o, (x.1, o) ∈ os ∧ P x o) ∧ ∀ o ∈ os, ∃ x ∈ ps, x.1 = o.1 ∧ P x o.2
  | [], _ => ⟨[], .nil, rfl, nofun, nofun⟩
  | x :: ps, h => by
    obtain ⟨os, h1, h2, h3, h4⟩ := outs_exist ps fun y hy => h y (by simp [hy])
    obtain ⟨o, ho, hP⟩ := h x (by simp)
    refine ⟨(x.1, o) :: os, .cons ⟨rfl, ho⟩ h1, by simp [h2], ?_, ?_⟩
    · intro y hy
      rcases List.mem_cons.1 hy with rfl | hy
      · exact ⟨o, by simp, hP⟩
      · obtain ⟨o', a, b⟩ := h3 y hy
        exact ⟨o', by simp [a], b⟩
    · intro o' ho'
      rcases List.mem_cons.1 ho' with rfl | ho'
      · exact ⟨x, by simp, rfl, hP⟩
      · obtain ⟨y, a, b⟩ := h4 o' ho'
        exact ⟨y, by simp [a], b⟩

/-- What the decoder makes of the encoded property `v`; references are found in the state `st` of the encoder. -/
def Out {σ : Type} (st : RefState Nat) (φ : Nat → Option σ) (v : Value Nat) (o : PropOut) : Prop :=
  (v = .reference none ∧ o = .ref []) ∨ (∃ q r, v = .reference (some q) ∧ o = .ref r ∧ Marked st q r) ∨
  (v.type ≠ .reference ∧ ∃ w, o = .value w ∧ JsonKept (fun _ => (none : Option Nat)) v w)

theorem propFrom_back {gen : Nat → Bytes} {fuel : Nat} {st : RefState Nat} {x : Bytes × Value Nat} {y : Bytes × JVal}
    (h : PropJ gen fuel st x y) (hs : JsonSupported x.2) :
    ∃ o, propFrom O it y.2 = .ok o ∧ Out (σ := Nat) st (fun _ => none) x.2 o := by
  obtain ⟨-, j, hy, ⟨st0, st1, hv⟩, hn, hr⟩ := h
  have ht : x.2.type ≠ .invalid := by cases x.2 <;> simp [Value.type]
  have hty : tyOf (typeFromString it (typeString x.2.type.code)) = x.2.type :=
    ty_back it _ ht (Props.C34_name_round_trip it _ ⟨_, ht, rfl⟩)
  have hp : propFrom O it y.2 = match valueFrom O it x.2.type j with
    | .ok (some v) =>
      if x.2.type = .reference then
        match v with
        | .string s => .ok (.ref s)
        | _ => .panic
      else .ok (.value v)
    | .ok none => .ok .skip
    | .err e => .err e
    | .panic => .panic := by
    rw [hy, propFrom]
    have e1 : index (propObj x.2 j) (str "type") = some (.str (typeString x.2.type.code)) := rfl
    have e2 : index (propObj x.2 j) (str "value") = some j := rfl
    rw [e1, e2]
    simp only [hty]
    rcases valueFrom O it x.2.type j with (_ | _) | _ | _ <;> rfl
  by_cases href : x.2.type = .reference
  · have : ∃ q, x.2 = .reference q := by
      revert href; cases x.2 <;> intro h <;> first | exact ⟨_, rfl⟩ | cases h
    obtain ⟨q, hq⟩ := this
    cases q with
    | none =>
      refine ⟨.ref [], ?_, .inl ⟨hq, rfl⟩⟩
      rw [hp, hn hq, hq]; rfl
    | some q =>
      obtain ⟨r, hj, hm⟩ := hr q hq
      refine ⟨.ref r, ?_, .inr (.inl ⟨q, r, hq, rfl, hm⟩)⟩
      rw [hp, hj, hq]; rfl
  · obtain ⟨j', w, h1, h2, h3⟩ := value_back O it gen fuel (fun _ => (none : Option Nat)) hs href st0
    rw [h1] at hv
    cases hv
    refine ⟨.value w, ?_, .inr (.inr ⟨href, w, rfl, h3⟩)⟩
    rw [hp, h2]
    simp [href]
end

/-! ## Decoding instances without children -/

/-- The text `r` stands for the reference `q`. -/
def RefIs (st : RefState Nat) (q : Option Nat) (r : Bytes) : Prop :=
  (q = none ∧ r = []) ∨ ∃ p, q = some p ∧ Marked st p r

/-- The instance `i`, made for `inst`, before references are resolved. -/
structure Half (st : RefState Nat) (inst : Inst Nat) (r : Bytes) (k : Nat) (i : Inst Nat) (prs : List (PropRef Nat)) :
    Prop where
  className : i.className = inst.className
  reference : i.reference = r
  isService : i.isService = inst.isService
  children : i.children = []
  without : ∀ n, inst.properties.get? n = none → i.properties.get? n = none
  plain : ∀ n v, inst.properties.get? n = some v → v.type ≠ .reference →
    ∃ w, i.properties.get? n = some w ∧ JsonKept (fun _ => (none : Option Nat)) v w
  ref : ∀ n q, inst.properties.get? n = some (.reference q) → ∃ r', ⟨some k, n, r'⟩ ∈ prs ∧ RefIs st q r'
  refs : ∀ pr ∈ prs, pr.inst = some k →
    ∃ q, inst.properties.get? pr.property = some (.reference q) ∧ RefIs st q pr.reference

theorem Half.more {st : RefState Nat} {inst : Inst Nat} {r : Bytes} {k : Nat} {i : Inst Nat} {prs more : List (PropRef Nat)}
    (h : Half st inst r k i prs) (hm : ∀ pr ∈ more, pr.inst ≠ some k) : Half st inst r k i (prs ++ more) := by
  refine ⟨h.className, h.reference, h.isService, h.children, h.without, h.plain, ?_, ?_⟩
  · intro n q hq
    obtain ⟨r', h1, h2⟩ := h.ref n q hq
    exact ⟨r', by simp [h1], h2⟩
  · intro pr hpr hk
    rcases List.mem_append.1 hpr with h1 | h1
    · exact h.refs pr h1 hk
    · exact absurd hk (hm pr h1)

/-- The state of the decoder after the instances `ds`. -/
structure Inv (h : Heap Nat) (st : RefState Nat) (ds : List Nat) (s : JState) : Prop where
  length : s.heap.length = ds.length
  keys : ∀ q, (s.heap.get? q).isSome ↔ q < ds.length
  insts : ∀ (k p : Nat), ds[k]? = some p → ∃ inst r i, h.get? p = some inst ∧ Marked st p r ∧
    s.refs.get? r = some (some k) ∧ s.heap.get? k = some i ∧ Half st inst r k i s.propRefs
  refs : ∀ (r : Bytes) (o : Option Nat), s.refs.get? r = some o → ∃ (k p : Nat), o = some k ∧ ds[k]? = some p ∧ Marked st p r
  propRefs : ∀ pr ∈ s.propRefs, ∃ k, pr.inst = some k ∧ k < ds.length

theorem mem_refOuts {p : Nat} {os : List (Bytes × PropOut)} {pr : PropRef Nat} :
    pr ∈ refOuts p os ↔ ∃ n r, (n, .ref r) ∈ os ∧ pr = ⟨some p, n, r⟩ := by
  unfold refOuts
  rw [List.mem_filterMap]
  constructor
  · rintro ⟨⟨n, o⟩, ho, h⟩
    cases o with
    | ref r => cases h; exact ⟨n, r, ho, rfl⟩
    | skip => cases h
    | value v => cases h
  · rintro ⟨n, r, ho, rfl⟩
    exact ⟨_, ho, rfl⟩

theorem Each.fst_map {α β γ : Type} {R : α → β → Prop} {f : α → γ} {g : β → γ} (h : ∀ a b, R a b → f a = g b)
    {as : List α} {bs : List β} (he : Each R as bs) : as.map f = bs.map g := by
  induction he with
  | nil => rfl
  | cons h1 _ ih => simp [h _ _ h1, ih]

theorem Each.mem_left {α β : Type} {R : α → β → Prop} {as : List α} {bs : List β} (he : Each R as bs) :
    ∀ a ∈ as, ∃ b ∈ bs, R a b := by
  induction he with
  | nil => nofun
  | cons h1 _ ih =>
    intro a ha
    rcases List.mem_cons.1 ha with rfl | ha
    · exact ⟨_, by simp, h1⟩
    · obtain ⟨b, hb, hr⟩ := ih a ha
      exact ⟨b, by simp [hb], hr⟩

theorem Each.mem_right {α β : Type} {R : α → β → Prop} {as : List α} {bs : List β} (he : Each R as bs) :
    ∀ b ∈ bs, ∃ a ∈ as, R a b := by
  induction he with
  | nil => nofun
  | cons h1 _ ih =>
    intro a ha
    rcases List.mem_cons.1 ha with rfl | ha
    · exact ⟨_, by simp, h1⟩
    · obtain ⟨b, hb, hr⟩ := ih a ha
      exact ⟨b, by simp [hb], hr⟩

section
variable {O : Overflow} {it : Iter} {gen : Nat → Bytes} {fuel : Nat}

/-- What the decoder does with a new instance without children. -/
theorem instFrom_new {inst : Inst Nat} {r : Bytes} (hr : isEmptyReference r = false) {props : List (Bytes × JVal)}
    {os : List (Bytes × PropOut)} {s : JState} (hnew : s.refs.get? r = none)
    (he : Each (fun x o => x.1 = o.1 ∧ propFrom O it x.2 = .ok o.2) (it.run [s.heap.length] props) os) :
    instFrom O it (instObj inst r props []) s = .ok (some s.heap.length,
      { heap := s.heap.set s.heap.length ⟨inst.className, r, inst.isService, applyOuts os [], []⟩
        refs := s.refs.set r (some s.heap.length)
        propRefs := s.propRefs ++ refOuts s.heap.length os }) := by
  have e0 : enter (instObj inst r props []) s = (s.heap.length, { s with
      heap := s.heap.set s.heap.length { className := [], reference := r }
      refs := s.refs.set r (some s.heap.length) }) := by
    have e : index (instObj inst r props []) (str "reference") = some (.str r) := rfl
    simp only [enter, e, hr, hnew]
    rfl
  have e1 : fill O it (instObj inst r props []) s.heap.length inst.className { s with
      heap := s.heap.set s.heap.length { className := [], reference := r }
      refs := s.refs.set r (some s.heap.length) } = .ok
      { heap := s.heap.set s.heap.length ⟨inst.className, r, inst.isService, applyOuts os [], []⟩
        refs := s.refs.set r (some s.heap.length)
        propRefs := s.propRefs ++ refOuts s.heap.length os } := by
    have a : index (instObj inst r props []) (str "is_service") = some (.bool inst.isService) := rfl
    have b : index (instObj inst r props []) (str "properties") = some (.obj props) := rfl
    simp only [fill, a, b, JState.update, Map.get?_set_self, set_set]
    rw [propsFrom_eq he (i := ⟨inst.className, r, inst.isService, [], []⟩) (by simp)]
    simp [set_set]
  rw [instObj, instFrom]
  have c : Map.get? [(str "class_name", JVal.str inst.className), (str "reference", .str r),
        (str "is_service", .bool inst.isService), (str "properties", .obj props), (str "children", .arr [])]
        (str "class_name") = some (.str inst.className) := rfl
  rw [c]
  simp only
  rw [show (JVal.obj [(str "class_name", JVal.str inst.className), (str "reference", .str r),
        (str "is_service", .bool inst.isService), (str "properties", .obj props), (str "children", .arr [])])
      = instObj inst r props [] from rfl, e0]
  simp only
  rw [e1]
  simp only [Res.ok_bind, JState.update, Map.get?_set_self, set_set]
  have d : ∀ s, childrenField O it [(str "class_name", JVal.str inst.className), (str "reference", .str r),
        (str "is_service", .bool inst.isService), (str "properties", .obj props), (str "children", .arr [])] s = .ok s := by
    intro s
    simp [childrenField, childrenFrom, show (str "class_name" = str "children") = False by simp; decide,
      show (str "reference" = str "children") = False by simp; decide,
      show (str "is_service" = str "children") = False by simp; decide,
      show (str "properties" = str "children") = False by simp; decide]
  rw [d]
  rfl

theorem keys_lt {hp : Heap Nat} {n : Nat} (hk : ∀ q, (hp.get? q).isSome ↔ q < n) (v : Inst Nat) :
    ∀ q, ((hp.set n v).get? q).isSome ↔ q < n + 1 := by
  intro q
  rw [Map.get?_set]
  split
  · rename_i h; simp [← h]
  · rename_i h; rw [hk]; omega

theorem set_length_new {κ ν : Type} [DecidableEq κ] : ∀ {m : Map κ ν} {k : κ} {v : ν}, m.get? k = none →
    (m.set k v).length = m.length + 1
  | [], k, v, _ => rfl
  | (k', v') :: m, k, v, h => by
    simp only [Map.get?] at h
    split at h
    · cases h
    · rename_i hk
      simp only [Map.set, hk, if_false, List.length_cons]
      rw [set_length_new h]

theorem listFrom_flat {h : Heap Nat} {st : RefState Nat} {it1 : Iter} {R : List Nat} (hok : ∀ p ∈ R, ∀ inst, h.get? p = some inst → inst.properties.Ok)
    (hsup : ∀ p ∈ R, ∀ inst n v, h.get? p = some inst → inst.properties.get? n = some v → JsonSupported v) :
    ∀ {ps : List Nat} {js : List JVal}, Each (InstJ gen fuel it1 h st) ps js → (∀ p ∈ ps, p ∈ R) →
    ∀ {ds : List Nat} {s : JState},
    Inv h st ds s → (ds ++ ps).Nodup →
    ∃ s', listFrom O it js s = .ok ((List.range ps.length).map (ds.length + ·), s') ∧ Inv h st (ds ++ ps) s' := by
  intro ps js he
  induction he with
  | nil =>
    intro _ ds s hi _
    exact ⟨s, rfl, by simpa using hi⟩
  | @cons p j ps js hj he ih =>
    intro hR ds s hi hnd
    obtain ⟨inst, r, props, hp, rfl, hm, hps⟩ := hj
    have hpo := hok p (hR p (by simp)) inst hp
    have hnew : s.refs.get? r = none := by
      cases hg : s.refs.get? r with
      | none => rfl
      | some o =>
        obtain ⟨k, p', -, hk, hm'⟩ := hi.refs r o hg
        have := hm.inj hm'
        subst this
        have : p ∈ ds := List.mem_of_getElem? hk
        rw [List.nodup_append] at hnd
        exact absurd rfl (hnd.2.2 p this p (by simp))
    -- the properties
    have hperm := it1.perm [p] inst.properties
    have hmem : ∀ x, x ∈ it1.run [p] inst.properties ↔ inst.properties.get? x.1 = some x.2 := by
      intro x
      rw [hperm.mem_iff]
      exact ⟨Map.get?_of_mem hpo, Map.mem_of_get?⟩
    have hrun := it.perm [s.heap.length] props
    obtain ⟨os, o1, o2, o3, o4⟩ := outs_exist (O := O) (it := it)
      (P := fun y o => ∃ v, inst.properties.get? y.1 = some v ∧ Out (σ := Nat) st (fun _ => none) v o)
      (it.run [s.heap.length] props) (by
        intro y hy
        obtain ⟨x, hx, hxy⟩ := Each.mem_right hps y (hrun.mem_iff.1 hy)
        have hx' := (hmem x).1 hx
        obtain ⟨o, ho, hout⟩ := propFrom_back (O := O) (it := it) hxy (hsup p (hR p (by simp)) inst x.1 x.2 hp hx')
        exact ⟨o, ho, x.2, by rw [← hxy.1]; exact hx', hout⟩)
    have hnames : (os.map Prod.fst).Nodup := by
      rw [o2, (hrun.map Prod.fst).nodup_iff, ← Each.fst_map (f := Prod.fst) (fun a b hab => hab.1) hps,
        (hperm.map Prod.fst).nodup_iff]
      exact hpo
    have hout : ∀ n v, inst.properties.get? n = some v → ∃ o, (n, o) ∈ os ∧ Out (σ := Nat) st (fun _ => none) v o := by
      intro n v hv
      obtain ⟨y, hy, hxy⟩ := Each.mem_left hps (n, v) ((hmem _).2 hv)
      obtain ⟨o, ho, v', hv', hout⟩ := o3 y (hrun.mem_iff.2 hy)
      have : y.1 = n := hxy.1.symm
      rw [this] at ho hv'
      rw [hv] at hv'; cases hv'
      exact ⟨o, ho, hout⟩
    have hback : ∀ n o, (n, o) ∈ os → ∃ v, inst.properties.get? n = some v ∧ Out (σ := Nat) st (fun _ => none) v o := by
      intro n o ho
      obtain ⟨y, -, hy, v, hv, hout⟩ := o4 _ ho
      exact ⟨v, by rw [show n = y.1 from hy.symm]; exact hv, hout⟩
    have hget := fun n => applyOuts_get n os [] hnames
    have hhalf : Half st inst r s.heap.length ⟨inst.className, r, inst.isService, applyOuts os [], []⟩
        (s.propRefs ++ refOuts s.heap.length os) := by
      refine ⟨rfl, rfl, rfl, rfl, ?_, ?_, ?_, ?_⟩
      · intro n hn
        refine ((hget n).2 fun v hv => ?_).trans rfl
        obtain ⟨v', hv', -⟩ := hback n _ hv
        rw [hn] at hv'; cases hv'
      · intro n v hv hne
        obtain ⟨o, ho, hout⟩ := hout n v hv
        rcases hout with ⟨rfl, -⟩ | ⟨q, r', rfl, -⟩ | ⟨-, w, rfl, hk⟩
        · exact absurd rfl hne
        · exact absurd rfl hne
        · exact ⟨w, (hget n).1 w ho, hk⟩
      · intro n q hq
        obtain ⟨o, ho, hout⟩ := hout n _ hq
        rcases hout with ⟨hq, rfl⟩ | ⟨q', r', hq, rfl, hm⟩ | ⟨hne, -⟩
        · cases hq
          exact ⟨[], List.mem_append_right _ (mem_refOuts.2 ⟨n, _, ho, rfl⟩), .inl ⟨rfl, rfl⟩⟩
        · cases hq
          exact ⟨r', List.mem_append_right _ (mem_refOuts.2 ⟨n, _, ho, rfl⟩), .inr ⟨q', rfl, hm⟩⟩
        · exact absurd rfl hne
      · intro pr hpr hk
        rcases List.mem_append.1 hpr with h1 | h1
        · obtain ⟨k, hk', hlt⟩ := hi.propRefs pr h1
          rw [hk] at hk'; cases hk'
          rw [hi.length] at hlt
          omega
        · obtain ⟨n, r', ho, rfl⟩ := mem_refOuts.1 h1
          obtain ⟨v, hv, hout⟩ := hback n _ ho
          rcases hout with ⟨rfl, he⟩ | ⟨q', r'', rfl, he, hm⟩ | ⟨hne, w, he, -⟩
          · cases he; exact ⟨none, hv, .inl ⟨rfl, rfl⟩⟩
          · cases he; exact ⟨some q', hv, .inr ⟨q', rfl, hm⟩⟩
          · cases he
    have hstep := instFrom_new (inst := inst) hm.1 hnew o1
    have hinv : Inv h st (ds ++ [p])
        { heap := s.heap.set s.heap.length ⟨inst.className, r, inst.isService, applyOuts os [], []⟩
          refs := s.refs.set r (some s.heap.length)
          propRefs := s.propRefs ++ refOuts s.heap.length os } := by
      have hnone : s.heap.get? s.heap.length = none := by
        have := (hi.keys s.heap.length).not.2 (by rw [hi.length]; omega)
        simpa using this
      refine ⟨?_, ?_, ?_, ?_, ?_⟩
      · simp only [List.length_append, List.length_singleton]
        rw [set_length_new hnone, hi.length]
      · simp only [List.length_append, List.length_singleton]
        have := keys_lt hi.keys ⟨inst.className, r, inst.isService, applyOuts os [], []⟩
        rw [hi.length]; exact this
      · intro k p' hk
        rw [List.getElem?_append] at hk
        split at hk
        · rename_i hlt
          obtain ⟨inst', r', i, a1, a2, a3, a4, a5⟩ := hi.insts k p' hk
          refine ⟨inst', r', i, a1, a2, ?_, ?_, a5.more ?_⟩
          · simp only [Map.get?_set]
            rw [if_neg, a3]
            rintro rfl
            rw [hnew] at a3; cases a3
          · simp only [Map.get?_set]
            rw [if_neg (by rw [hi.length]; omega), a4]
          · intro pr hpr hpk
            obtain ⟨n, r', -, rfl⟩ := mem_refOuts.1 hpr
            cases hpk
            rw [hi.length] at hlt
            omega
        · rename_i hge
          have hk0 : k = ds.length := by
            by_contra hne
            rw [List.getElem?_eq_none (by simp; omega)] at hk
            cases hk
          subst hk0
          simp at hk
          subst hk
          refine ⟨inst, r, ⟨inst.className, r, inst.isService, applyOuts os [], []⟩, hp, hm, ?_, ?_, ?_⟩
          rotate_left 2
          · have := hhalf
            rw [hi.length] at this ⊢
            exact this
          · simp [hi.length]
          · simp [hi.length]
      · intro r' o ho
        simp only [Map.get?_set] at ho
        split at ho
        · rename_i e
          cases ho
          refine ⟨ds.length, p, by rw [hi.length], by simp, ?_⟩
          rw [e]; exact hm
        · obtain ⟨k, p', rfl, hk, hm'⟩ := hi.refs r' o ho
          refine ⟨k, p', rfl, ?_, hm'⟩
          rw [List.getElem?_append_left (List.getElem?_eq_some_iff.1 hk).1]
          exact hk
      · intro pr hpr
        rcases List.mem_append.1 hpr with h1 | h1
        · obtain ⟨k, hk, hlt⟩ := hi.propRefs pr h1
          exact ⟨k, hk, by simp; omega⟩
        · obtain ⟨n, r', -, rfl⟩ := mem_refOuts.1 h1
          exact ⟨_, rfl, by simp [hi.length]⟩
    obtain ⟨s', hs', hi'⟩ := ih (fun q hq => hR q (by simp [hq])) hinv (by simpa using hnd)
    refine ⟨s', ?_, by simpa using hi'⟩
    rw [listFrom, hstep]
    simp only [Res.ok_bind, hs', Res.pure_eq, Option.toList, List.length_append, List.length_cons, List.length_nil]
    congr 2
    rw [List.range_succ_eq_map, List.map_cons, List.map_map, hi.length]
    simp only [List.singleton_append, Nat.add_zero, List.cons.injEq, true_and]
    apply List.map_congr_left
    intro a _
    simp only [Function.comp]
    omega
end

theorem setRefs_fold (refs : References Nat) : ∀ (prs : List (PropRef Nat)) (h : Heap Nat),
    setRefs refs prs h = applyOps h (refOps refs prs)
  | prs, h => by
    rw [← resolveFold]
    induction prs generalizing h with
    | nil => rfl
    | cons pr prs ih => rw [setRefs, ih]; rfl

/-- The correspondence of the instances `ps` and the decoded ones. -/
def numbered (ps : List Nat) (p : Nat) : Option Nat := if p ∈ ps then some (ps.idxOf p) else none

theorem kept_other {φ : Nat → Option Nat} {v : Value Nat} {w : Value Nat} (hv : v.type ≠ .reference)
    (h : JsonKept (fun _ => (none : Option Nat)) v w) : JsonKept φ v w := by
  cases v <;> first | exact h | exact absurd rfl hv

/-- What is decoded. -/
theorem flat_back {gen : Nat → Bytes} {fuel : Nat} {O : Overflow} {it1 it2 : Iter} {h : Heap Nat} {pos : Nat} {root : Root Nat}
    (hgen : ∀ k, isEmptyReference (gen k) = false)
    (hflat : ∀ p ∈ root.instances, ∃ inst, h.get? p = some inst ∧ inst.children = [])
    (hnd : root.instances.Nodup)
    (hok : ∀ p ∈ root.instances, ∀ inst, h.get? p = some inst → inst.properties.Ok)
    (hsup : ∀ p ∈ root.instances, ∀ inst n v, h.get? p = some inst → inst.properties.get? n = some v → JsonSupported v)
    {j : JVal} {h1 : Heap Nat} (he : rootTo gen fuel it1 h pos root = .ok (j, h1)) :
    ∃ h2 root2, rootFrom O it2 j = .ok (some (h2, root2)) ∧ root2.metadata = [] ∧
      root2.instances.map some = root.instances.map (numbered root.instances) ∧
      (∀ q, (h2.get? q).isSome ↔ q < root.instances.length) ∧
      ∀ p ∈ root.instances, ∃ q inst r i, numbered root.instances p = some q ∧ h.get? p = some inst ∧
        h1.get? p = some { inst with reference := r } ∧ h2.get? q = some i ∧
        i.className = inst.className ∧ i.reference = r ∧ i.isService = inst.isService ∧ i.children = [] ∧
        ∀ n, (inst.properties.get? n = none → i.properties.get? n = none) ∧
          ∀ v, inst.properties.get? n = some v →
            ∃ w, i.properties.get? n = some w ∧ JsonKept (numbered root.instances) v w := by
  unfold rootTo at he
  obtain ⟨⟨js, st⟩, hl, he⟩ := Res.bind_eq_ok.1 he
  simp only [Res.pure_eq, Res.ok.injEq, Prod.mk.injEq] at he
  obtain ⟨rfl, rfl⟩ := he
  obtain ⟨ext, hj⟩ := listTo_flat hgen root.instances hflat (SameBut.refl h) hl
  obtain ⟨s, hs, hi⟩ := listFrom_flat (O := O) (it := it2) hok hsup hj (fun _ hp => hp) (ds := []) (s := {})
    ⟨rfl, by simp, by simp, by simp, by simp⟩ (by simpa using hnd)
  rw [List.nil_append] at hi
  have hnum : ∀ k p, root.instances[k]? = some p → numbered root.instances p = some k := by
    intro k p hk
    obtain ⟨hlt, rfl⟩ := List.getElem?_eq_some_iff.1 hk
    unfold numbered
    rw [if_pos (List.getElem_mem hlt), hnd.idxOf_getElem]
  refine ⟨setRefs s.refs s.propRefs s.heap, { instances := (List.range root.instances.length).map (0 + ·) }, ?_, rfl, ?_, ?_, ?_⟩
  · have a : index (.obj [(str "rbxfile_version", .num (intToF64 0)), (str "instances", .arr js)]) (str "rbxfile_version") =
      some (.num (intToF64 0)) := rfl
    have b : index (.obj [(str "rbxfile_version", .num (intToF64 0)), (str "instances", .arr js)]) (str "instances") =
      some (.arr js) := rfl
    have c : f64ToInt O 64 (intToF64 0) = 0#64 := by
      have := f64ToInt_back O (by decide : 0 < 64) 0#64 (by decide) ⟨0, 0, by decide, by decide⟩
      simpa using this
    rw [rootFrom, a]
    simp only [c, if_true, b]
    simp only [List.length_nil] at hs
    rw [hs]
    rfl
  · apply List.ext_getElem?
    intro k
    simp only [List.getElem?_map]
    by_cases hk : k < root.instances.length
    · rw [List.getElem?_range hk, List.getElem?_eq_getElem hk]
      simp only [Option.map_some, Nat.zero_add]
      rw [hnum k _ (List.getElem?_eq_getElem hk)]
    · rw [List.getElem?_eq_none (by simpa using Nat.le_of_not_lt hk), List.getElem?_eq_none (by simpa using Nat.le_of_not_lt hk)]
      rfl
  · intro q
    rw [setRefs_fold, applyOps_keys]
    exact hi.keys q
  · intro p hp
    obtain ⟨k, hk⟩ := List.getElem?_of_mem hp
    obtain ⟨inst, r, i, a1, a2, a3, a4, a5⟩ := hi.insts k p hk
    obtain ⟨i2, g1, g2, g3⟩ := applyOps_get (refOps s.refs s.propRefs) s.heap k a4
    obtain ⟨b, hb⟩ := ext.heap p inst a1
    have hr : r = b := by
      obtain ⟨-, -, c, hc, rfl⟩ := a2
      rw [hc] at hb; cases hb; rfl
    have hlook : ∀ q r', RefIs st q r' → s.refs.at r' = q.bind (numbered root.instances) := by
      rintro q r' (⟨rfl, rfl⟩ | ⟨p', rfl, hm'⟩)
      · unfold References.at
        cases hg : s.refs.get? [] with
        | none => rfl
        | some o =>
          obtain ⟨k', p', -, -, hm'⟩ := hi.refs _ _ hg
          exact absurd hm'.1 (by decide)
      · simp only [Option.bind_some]
        by_cases hp' : p' ∈ root.instances
        · obtain ⟨k', hk'⟩ := List.getElem?_of_mem hp'
          obtain ⟨-, r'', -, -, c2, c3, -, -⟩ := hi.insts k' p' hk'
          rw [c2.unique hm'] at c3
          rw [hnum k' p' hk', References.at, c3]
          rfl
        · unfold References.at
          cases hg : s.refs.get? r' with
          | none => simp [numbered, hp']
          | some o =>
            obtain ⟨k', p'', -, hk', hm''⟩ := hi.refs _ _ hg
            rw [hm'.inj hm''] at hp'
            exact absurd (List.mem_of_getElem? hk') hp'
    have hmem : ∀ n v, (k, n, v) ∈ refOps s.refs s.propRefs ↔
        ∃ q, inst.properties.get? n = some (.reference q) ∧ v = .reference (q.bind (numbered root.instances)) := by
      intro n v
      unfold refOps
      rw [List.mem_filterMap]
      constructor
      · rintro ⟨⟨o, n', r'⟩, hpr, hv⟩
        cases o with
        | none => cases hv
        | some k' =>
          cases hv
          obtain ⟨q, hq, hre⟩ := a5.refs _ hpr rfl
          exact ⟨q, hq, by rw [← hlook q _ hre]⟩
      · rintro ⟨q, hq, rfl⟩
        obtain ⟨r', h1, h2⟩ := a5.ref n q hq
        refine ⟨_, h1, ?_⟩
        simp only [Option.map_some]
        rw [hlook q r' h2]
    refine ⟨k, inst, r, i2, hnum k p hk, a1, by rw [hr]; exact hb, by rw [setRefs_fold]; exact g1,
      g2.cls.trans a5.className, g2.ref.trans a5.reference, g2.svc.trans a5.isService, g2.kids.trans a5.children, ?_⟩
    intro n
    refine ⟨fun hn => ?_, fun v hv => ?_⟩
    · rw [(g3 n).1, a5.without n hn]
      intro v hv
      obtain ⟨q, hq, -⟩ := (hmem n v).1 hv
      rw [hn] at hq; cases hq
    · by_cases href : ∃ q, v = .reference q
      · obtain ⟨q, rfl⟩ := href
        refine ⟨_, (g3 n).2 _ ((hmem n _).2 ⟨q, hv, rfl⟩) ?_, rfl⟩
        intro w hw
        obtain ⟨q', hq', rfl⟩ := (hmem n w).1 hw
        rw [hv] at hq'; cases hq'; rfl
      · have hne : v.type ≠ .reference := by
          cases v <;> first | exact absurd ⟨_, rfl⟩ href | (intro h; cases h)
        obtain ⟨w, hw, hkept⟩ := a5.plain n v hv hne
        refine ⟨w, ?_, kept_other hne hkept⟩
        rw [(g3 n).1, hw]
        intro u hu
        obtain ⟨q, hq, -⟩ := (hmem n u).1 hu
        rw [hv] at hq; cases hq
        exact href ⟨_, rfl⟩

end Json

import Verif.Rbxl.EncPanics
/-!
# The warnings of the binary encoder

`robloxCodec.Encode` (rbxl/codec.go:426-740) collects warnings about properties that it leaves out; `Encoder.encode`
(rbxl/encoder.go:50-115) collects warnings about chunks (`encodeWarns`).
-/
namespace Rbxl
open Go Rbxfile

variable {ρ : Type} [DecidableEq ρ]

/-- A warning of the codec (rbxl/codec.go:561-575): the position of the class, the type found (`none`: typeInvalid) and the type
of the first value, the class and the property. Not modelled: the two warnings about unknown types, because Go panics while it
builds them (`instList[-1]`). -/
inductive SkipWarn where
  | mismatched (i : Nat) (t : Option TypeID) (propType : TypeID) (cls name : Bytes)
  | mismatchedOptional (i : Nat) (t : Option TypeID) (optionType : TypeID) (cls name : Bytes)
  deriving DecidableEq, Repr

/-- The class and the property named by a warning. -/
def SkipWarn.subject : SkipWarn → Bytes × Bytes
  | .mismatched _ _ _ cls name => (cls, name)
  | .mismatchedOptional _ _ _ cls name => (cls, name)

/-- The warnings of the check of the second and later values of a property (rbxl/codec.go:561-575), cf. `planRest`. -/
def planRestWarns (i : Nat) (cls name : Bytes) (t : TypeID) (k : Kind) : List (Value ρ) → List SkipWarn
  | [] => []
  | v :: vs =>
    if fromValueType v.type ≠ some t then [.mismatched i (fromValueType v.type) t cls name]
    else
      match v, k with
      | .optional typ _, .opt e =>
        if fromValueType typ ≠ some e then [.mismatchedOptional i (fromValueType typ) e cls name]
        else planRestWarns i cls name t k vs
      | _, _ => planRestWarns i cls name t k vs

/-- The class name of `instList[instRef]` (rbxl/codec.go:566, 571), the first instance that has the property. -/
def warnClass (insts : List (Inst ρ)) (name : Bytes) : Bytes :=
  match insts.find? fun i => (i.properties.get? name).isSome with
  | some i => i.className
  | none => []

/-- The warnings of the type check of a property name (rbxl/codec.go:527-587), cf. `planProp`. -/
def planPropWarns (place : Bool) (i : Nat) (insts : List (Inst ρ)) (name : Bytes) : List SkipWarn :=
  match insts.filterMap fun i => i.properties.get? name with
  | [] => []
  | v :: vs =>
    match fromValueType v.type with
    | none => []
    | some t =>
      if !place && t = .uniqueId then []
      else
        match v with
        | .optional typ _ =>
          match fromValueType typ with
          | none => []
          | some e => planRestWarns i (warnClass insts name) name t (.opt e) vs
        | _ => planRestWarns i (warnClass insts name) name t (.plain t) vs

/-- The warnings of the loop over the classes (rbxl/codec.go:506-653), cf. `propChunks`. -/
def classesWarns (it : Iter) (place : Bool) (insts : List (Inst ρ)) : Nat → List InstChunk → Res (List SkipWarn)
  | _, [] => .ok []
  | i, c :: cs => do
    let is ← instsOf insts c.ids
    let ws ← classesWarns it place insts (i + 1) cs
    pure ((it.run [2, i] (propNames it i is)).flatMap (planPropWarns place i is) ++ ws)

/-- The warnings of `robloxCodec.Encode` (rbxl/codec.go:426-740). -/
def codecWarns (it : Iter) (srt : Sorter) (place : Bool) (h : Heap ρ) (root : Root ρ) : Res (List SkipWarn) := do
  let L ← instList h root.instances
  classesWarns it place (L.map Prod.snd) 0 (classList it srt place (L.map Prod.snd))

/-- The warnings returned by `Encoder.Encode` (rbxl/encoder.go:23-36) if the writer accepts everything: those of
`Encoder.encode` only; those of the codec are overwritten. -/
def encodeRootWarns (uncompressed : Bool) (it : Iter) (srt : Sorter) (hash : Bytes → Bytes) (place : Bool) (h : Heap ρ)
    (root : Root ρ) : Res (List Warn) := do
  let f ← codecEncode it srt hash place h root
  pure (encodeWarns uncompressed false f)

/-! ### When the codec warns -/

open Spec

omit [DecidableEq ρ] in
theorem planRestWarns_subject (i : Nat) (cls name : Bytes) (t : TypeID) (k : Kind) : ∀ (vs : List (Value ρ)),
    ∀ w ∈ planRestWarns i cls name t k vs, w.subject = (cls, name) := by
  intro vs
  induction vs with
  | nil => intro w h; cases h
  | cons v vs ih =>
    intro w h
    unfold planRestWarns at h
    split at h
    · simp only [List.mem_singleton] at h; subst h; rfl
    · split at h
      · split at h
        · simp only [List.mem_singleton] at h; subst h; rfl
        · exact ih w h
      · exact ih w h

omit [DecidableEq ρ] in
theorem planRestWarns_none (i : Nat) (cls name : Bytes) (t : TypeID) (k : Kind) (hk : k = .plain t ∨ ∃ e, k = .opt e) :
    ∀ (vs : List (Value ρ)) {r : Option Kind}, planRest t k vs = .ok r → (k = .plain t → t ≠ .optional) →
    (planRestWarns i cls name t k vs ≠ [] ↔ r = none) := by
  intro vs
  induction vs with
  | nil =>
    intro r h _
    simp only [planRest, Res.ok.injEq] at h
    subst h
    simp [planRestWarns]
  | cons v vs ih =>
    intro r h hno
    unfold planRest at h
    unfold planRestWarns
    split at h
    · rename_i hv
      cases h
      rw [if_pos hv]
      simp
    · rename_i hv
      rw [if_neg hv]
      have hv' : fromValueType v.type = some t := Classical.byContradiction hv
      cases v with
      | optional typ o =>
        have ht : t = .optional := by simpa [Value.type, fromValueType] using hv'.symm
        rcases hk with rfl | ⟨e, rfl⟩
        · exact absurd ht (hno rfl)
        · simp only at h ⊢
          split at h
          · cases h
          · rename_i hne
            have he : fromValueType typ = some e := by
              have : (fromValueType typ).map Kind.opt = some (Kind.opt e) := Classical.byContradiction hne
              rcases hx : fromValueType typ with _ | x
              · rw [hx] at this; cases this
              · rw [hx] at this; simp at this; rw [this]
            rw [if_neg (by rw [he]; simp)]
            exact ih h hno
      | _ => exact ih h hno

omit [DecidableEq ρ] in
theorem planPropWarns_subject (place : Bool) (i : Nat) (insts : List (Inst ρ)) (n : Bytes) :
    ∀ w ∈ planPropWarns place i insts n, w.subject = (warnClass insts n, n) := by
  intro w h
  unfold planPropWarns at h
  split at h
  · cases h
  · split at h
    · cases h
    · split at h
      · cases h
      · split at h
        · split at h
          · cases h
          · exact planRestWarns_subject _ _ _ _ _ _ w h
        · exact planRestWarns_subject _ _ _ _ _ _ w h

omit [DecidableEq ρ] in
theorem uniqueId_iff {v : Value ρ} {t : TypeID} (h : fromValueType v.type = some t) :
    t = .uniqueId ↔ v.type = .uniqueId := by
  constructor
  · rintro rfl
    cases v <;> first | rfl | (exfalso; revert h; simp [Value.type, fromValueType])
  · intro h'
    rw [h'] at h
    simpa [fromValueType] using h.symm

omit [DecidableEq ρ] in
/-- The codec warns about a property exactly if it leaves it out, unless the first value is a unique id in a model. -/
theorem planPropWarns_iff {place : Bool} (i : Nat) {insts : List (Inst ρ)} {n : Bytes} {r : Option Kind}
    (h : planProp place insts n = .ok r) :
    planPropWarns place i insts n ≠ [] ↔
      r = none ∧ ¬ (place = false ∧ ∃ v vs, valuesOf insts n = v :: vs ∧ v.type = .uniqueId) := by
  unfold planProp at h
  unfold planPropWarns
  unfold valuesOf
  generalize warnClass insts n = cls
  generalize (insts.filterMap fun i => i.properties.get? n) = vs at h ⊢
  cases vs with
  | nil => cases h
  | cons v vs =>
    simp only at h ⊢
    rcases ht : fromValueType v.type with _ | t
    · simp only [ht] at h; cases h
    · simp only [ht] at h ⊢
      have hu := uniqueId_iff ht
      by_cases hc : (!place && t = .uniqueId) = true
      · rw [if_pos hc] at h ⊢
        cases h
        simp only [ne_eq, not_true_eq_false, false_iff, true_and, Classical.not_not]
        simp only [Bool.and_eq_true, Bool.not_eq_true', decide_eq_true_eq] at hc
        exact ⟨hc.1, v, vs, rfl, hu.1 hc.2⟩
      · rw [if_neg hc] at h ⊢
        have hneg : ¬ (place = false ∧ ∃ v' vs', v :: vs = v' :: vs' ∧ v'.type = .uniqueId) := by
          rintro ⟨hp, v', vs', e, hv'⟩
          cases e
          apply hc
          simp [hp, hu.2 hv']
        rw [and_iff_left hneg]
        cases v with
        | optional typ o =>
          simp only at h ⊢
          rcases he : fromValueType typ with _ | e
          · simp only [he] at h; cases h
          · simp only [he] at h ⊢
            exact planRestWarns_none i cls n t (.opt e) (.inr ⟨e, rfl⟩) vs h (by intro e; cases e)
        | _ =>
          refine planRestWarns_none i cls n t (.plain t) (.inl rfl) vs h (fun _ hto => ?_)
          subst hto
          simp [Value.type, fromValueType] at ht

omit [DecidableEq ρ] in
theorem warnClass_eq {insts : List (Inst ρ)} {cls : Bytes} (hc : ∀ i ∈ insts, i.className = cls) {n : Bytes}
    (hne : valuesOf insts n ≠ []) : warnClass insts n = cls := by
  unfold warnClass
  split
  · rename_i i hi
    exact hc i (List.mem_of_find?_eq_some hi)
  · rename_i hi
    exfalso
    apply hne
    rw [valuesOf, List.filterMap_eq_nil_iff]
    intro i hm
    have := List.find?_eq_none.1 hi i hm
    simpa using this

omit [DecidableEq ρ] in
theorem mem_classInsts {insts : List (Inst ρ)} {cls : Bytes} : ∀ i ∈ classInsts insts cls, i.className = cls := by
  intro i hi
  obtain ⟨y, hy, rfl⟩ := List.mem_map.1 hi
  exact (mem_members.1 hy).2

/-- The warnings of the loop over the classes, when the loop itself succeeds. -/
theorem classesWarns_iff {it : Iter} {srt : Sorter} {hash : Bytes → Bytes} {place : Bool} {L : Map ρ (Inst ρ)}
    (hn : L.length < 2 ^ 31) :
    ∀ (names : List Bytes) (k : Nat) (sh sh' : Shared) (cs : List PropChunk),
    propChunks it srt hash place L k ((names.zipIdx k).map fun c =>
        { chunkOf place c.1 (members (L.map Prod.snd).zipIdx c.1) with classID := BitVec.ofNat 32 c.2 }) sh = .ok (cs, sh') →
    ∃ ws, classesWarns it place (L.map Prod.snd) k ((names.zipIdx k).map fun c =>
        { chunkOf place c.1 (members (L.map Prod.snd).zipIdx c.1) with classID := BitVec.ofNat 32 c.2 }) = .ok ws ∧
      ∀ cls n, (∃ w ∈ ws, w.subject = (cls, n)) ↔
        cls ∈ names ∧ valuesOf (classInsts (L.map Prod.snd) cls) n ≠ [] ∧
        ¬ Written place (valuesOf (classInsts (L.map Prod.snd) cls) n) ∧
        ¬ (place = false ∧ ∃ v vs, valuesOf (classInsts (L.map Prod.snd) cls) n = v :: vs ∧ v.type = .uniqueId) := by
  intro names
  induction names with
  | nil => intro k sh sh' cs _; exact ⟨[], rfl, by simp⟩
  | cons cls names ih =>
    intro k sh sh' cs h
    rw [List.zipIdx_cons, List.map_cons] at h
    simp only [propChunks, Res.bind_eq_ok, Res.pure_eq, Res.ok.injEq] at h
    obtain ⟨insts, h0, plan, h1, ⟨xs, sh1⟩, h2, ⟨ys, sh2⟩, h3, h4⟩ := h
    obtain ⟨ws, hws, hiff⟩ := ih (k + 1) sh1 sh2 ys h3
    have hi : instsOf (L.map Prod.snd) ((members (L.map Prod.snd).zipIdx cls).map fun y => BitVec.ofNat 32 y.2) =
        .ok (classInsts (L.map Prod.snd) cls) :=
      instsOf_members (by simpa using hn) _ (fun y hy => (mem_members.1 hy).1)
    have hinsts : insts = classInsts (L.map Prod.snd) cls := by
      have h0' : instsOf (L.map Prod.snd) ((members (L.map Prod.snd).zipIdx cls).map
        fun y => BitVec.ofNat 32 y.2) = .ok insts := h0
      rw [hi] at h0'
      cases h0'
      rfl
    subst hinsts
    refine ⟨(it.run [2, k] (propNames it k (classInsts (L.map Prod.snd) cls))).flatMap
      (planPropWarns place k (classInsts (L.map Prod.snd) cls)) ++ ws, ?_, ?_⟩
    · rw [List.zipIdx_cons, List.map_cons, classesWarns]
      show (instsOf (L.map Prod.snd) ((members (L.map Prod.snd).zipIdx cls).map fun y => BitVec.ofNat 32 y.2) >>= _) = _
      rw [hi, Res.ok_bind, hws]
      rfl
    · intro cls' n
      simp only [classProps, Res.bind_eq_ok, Res.pure_eq, Res.ok.injEq] at h1
      obtain ⟨ps, hp1, -⟩ := h1
      obtain ⟨-, hall, -⟩ := planAll_ok hp1
      obtain ⟨-, hnames⟩ := propNames_ok it k (classInsts (L.map Prod.snd) cls)
      have hit := it.perm [2, k] (propNames it k (classInsts (L.map Prod.snd) cls))
      have hmem : ∀ n, n ∈ it.run [2, k] (propNames it k (classInsts (L.map Prod.snd) cls)) ↔
          valuesOf (classInsts (L.map Prod.snd) cls) n ≠ [] := fun n => hit.mem_iff.trans (hnames n)
      have hfirst : (∃ w ∈ (it.run [2, k] (propNames it k (classInsts (L.map Prod.snd) cls))).flatMap
          (planPropWarns place k (classInsts (L.map Prod.snd) cls)), w.subject = (cls', n)) ↔
          cls' = cls ∧ valuesOf (classInsts (L.map Prod.snd) cls) n ≠ [] ∧
          planPropWarns place k (classInsts (L.map Prod.snd) cls) n ≠ [] := by
        constructor
        · rintro ⟨w, hw, hs⟩
          obtain ⟨m, hm, hw⟩ := List.mem_flatMap.1 hw
          have hne := (hmem m).1 hm
          rw [planPropWarns_subject _ _ _ _ w hw, warnClass_eq mem_classInsts hne] at hs
          cases hs
          exact ⟨rfl, hne, List.ne_nil_of_mem hw⟩
        · rintro ⟨rfl, hne, hw⟩
          obtain ⟨w, hw⟩ := List.exists_mem_of_ne_nil _ hw
          refine ⟨w, List.mem_flatMap.2 ⟨n, (hmem n).2 hne, hw⟩, ?_⟩
          rw [planPropWarns_subject _ _ _ _ w hw, warnClass_eq mem_classInsts hne]
      have hsplit : (∃ w ∈ (it.run [2, k] (propNames it k (classInsts (L.map Prod.snd) cls))).flatMap
          (planPropWarns place k (classInsts (L.map Prod.snd) cls)) ++ ws, w.subject = (cls', n)) ↔
          (cls' = cls ∧ valuesOf (classInsts (L.map Prod.snd) cls) n ≠ [] ∧
          planPropWarns place k (classInsts (L.map Prod.snd) cls) n ≠ []) ∨ ∃ w ∈ ws, w.subject = (cls', n) := by
        rw [← hfirst]
        simp only [List.mem_append]
        constructor
        · rintro ⟨w, hw | hw, hs⟩
          · exact .inl ⟨w, hw, hs⟩
          · exact .inr ⟨w, hw, hs⟩
        · rintro (⟨w, hw, hs⟩ | ⟨w, hw, hs⟩)
          · exact ⟨w, .inl hw, hs⟩
          · exact ⟨w, .inr hw, hs⟩
      rw [hsplit, hiff, List.mem_cons]
      have hkey : ∀ n, valuesOf (classInsts (L.map Prod.snd) cls) n ≠ [] →
          (planPropWarns place k (classInsts (L.map Prod.snd) cls) n ≠ [] ↔
          ¬ Written place (valuesOf (classInsts (L.map Prod.snd) cls) n) ∧
          ¬ (place = false ∧ ∃ v vs, valuesOf (classInsts (L.map Prod.snd) cls) n = v :: vs ∧ v.type = .uniqueId)) := by
        intro n hne
        obtain ⟨r, hr⟩ := hall n ((hmem n).2 hne)
        rw [planPropWarns_iff k hr]
        rcases planProp_ok hr with ⟨rfl, hw⟩ | ⟨kd, rfl, hw, -⟩
        · simp [hw]
        · simp [hw]
      constructor
      · rintro (⟨rfl, hne, hw⟩ | ⟨hm, hne, hw⟩)
        · exact ⟨.inl rfl, hne, (hkey n hne).1 hw⟩
        · exact ⟨.inr hm, hne, hw⟩
      · rintro ⟨rfl | hm, hne, hw⟩
        · exact .inl ⟨rfl, hne, (hkey n hne).2 hw⟩
        · exact .inr ⟨hm, hne, hw⟩

end Rbxl

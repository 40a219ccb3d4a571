import Verif.Rbxl.CodecEncode
import Verif.Rbxl.ArraysLemmas
import Verif.Spec.Binary
import Mathlib.Data.List.Forall2
/-!
# Values stored by `robloxCodec.Encode` and read by `robloxCodec.Decode`
-/
namespace Rbxl
open Go Rbxfile Spec

variable {ρ : Type}

/-! ### types -/

theorem binType_eq (t : Ty) : binType t = ((fromValueType t).map TypeID.valueType).getD .invalid := by
  cases t <;> rfl

theorem fromValueType_binType (t : Ty) : fromValueType (binType t) = fromValueType t := by
  cases t <;> rfl

theorem binType_eq_iff {a b : Ty} : binType a = binType b ↔ fromValueType a = fromValueType b := by
  constructor
  · intro h
    rw [← fromValueType_binType a, h, fromValueType_binType]
  · intro h
    rw [binType_eq, binType_eq, h]

theorem valueType_of {ty : Ty} {t : TypeID} (h : fromValueType ty = some t) :
    t.valueType = binType ty := by rw [binType_eq, h]; rfl

theorem interleaved_of {ty : Ty} {t : TypeID} (h : fromValueType ty = some t) :
    interleaved t = interleavedTy ty := by
  cases ty <;> simp only [fromValueType, Option.some.injEq, reduceCtorEq] at h <;> subst h <;> rfl

theorem fromValueType_ne_quat {ty : Ty} : fromValueType ty ≠ some .cframeQuat := by
  cases ty <;> simp [fromValueType]

/-! ### rotations -/

theorem F32.goEq_comm (a b : F32) : F32.goEq a b = F32.goEq b a := by
  simp only [F32.goEq]
  rw [show (a == b) = (b == a) from BEq.comm]
  cases F32.isNaN a <;> cases F32.isNaN b <;> cases F32.isZero a <;> cases F32.isZero b <;> simp

theorem matrixEq_comm (a b : Matrix) : matrixEq a b = matrixEq b a := by
  simp only [matrixEq]
  rw [F32.goEq_comm a.m0, F32.goEq_comm a.m1, F32.goEq_comm a.m2, F32.goEq_comm a.m3,
    F32.goEq_comm a.m4, F32.goEq_comm a.m5, F32.goEq_comm a.m6, F32.goEq_comm a.m7,
    F32.goEq_comm a.m8]

theorem specialTable_ok : ∀ e ∈ cframeSpecialTable, e.1 ≠ 0#8 ∧ cframeSpecialMatrix e.1 = e.2 := by
  decide

theorem cframeSpecialNumber_some {m : Matrix} {s : Byte} (h : cframeSpecialNumber m = some s) :
    s ≠ 0#8 ∧ matrixEq m (cframeSpecialMatrix s) = true ∧ ∃ e ∈ cframeSpecialTable, cframeSpecialMatrix s = e.2 := by
  simp only [cframeSpecialNumber, Option.map_eq_some_iff] at h
  obtain ⟨e, he, rfl⟩ := h
  have hm := List.mem_of_find?_eq_some he
  have hp := List.find?_some he
  obtain ⟨h1, h2⟩ := specialTable_ok e hm
  rw [h2, matrixEq_comm]
  exact ⟨h1, hp, e, hm, rfl⟩

/-! ### encoding and decoding a value -/

/-- The value is handled by `encodeValue`. -/
def Value.plainValue : Value ρ → Prop
  | .reference _ => False
  | .sharedString _ => False
  | .optional _ _ => False
  | _ => True

theorem encodeValue_some (v : Value ρ) (h : Value.plainValue v) :
    ∃ b, encodeValue v = some b ∧ fromValueType v.type = some b.type := by
  cases v with
  | cframe p r =>
    simp only [encodeValue]
    cases cframeSpecialNumber r <;> exact ⟨_, rfl, rfl⟩
  | reference => exact h.elim
  | sharedString => exact h.elim
  | optional => exact h.elim
  | _ => exact ⟨_, rfl, rfl⟩

theorem encodeValue_plain {v : Value ρ} {b : Val} (h : encodeValue v = some b) :
    Value.plainValue v := by
  cases v <;> first | trivial | cases h

theorem encodeValue_type {v : Value ρ} {b : Val} (h : encodeValue v = some b) :
    fromValueType v.type = some b.type := by
  obtain ⟨b', h1, h2⟩ := encodeValue_some v (encodeValue_plain h)
  rw [h] at h1; cases h1; exact h2

theorem decode_encode {σ : Type} (quat : Quat) (φ : ρ → Option σ) {v : Value ρ} {b : Val}
    (h : encodeValue v = some b) :
    ∃ w, decodeValue quat b.canon = some w ∧ Kept φ v w ∧ w.type = binType v.type := by
  cases v with
  | cframe p r =>
    simp only [encodeValue] at h
    cases hs : cframeSpecialNumber r with
    | none =>
      rw [hs] at h; cases h
      exact ⟨_, rfl, ⟨r, rfl, .inl rfl⟩, rfl⟩
    | some s =>
      rw [hs] at h; cases h
      obtain ⟨h1, h2⟩ := cframeSpecialNumber_some hs
      refine ⟨.cframe p (cframeSpecialMatrix s), ?_, ⟨cframeSpecialMatrix s, rfl, .inr h2⟩, rfl⟩
      simp [Val.canon, h1, decodeValue]
  | reference => cases h
  | sharedString => cases h
  | optional => cases h
  | physicalProperties c =>
    cases h
    cases c
    · exact ⟨_, rfl, rfl, rfl⟩
    · exact ⟨_, rfl, rfl, rfl⟩
  | numberSequence ks =>
    cases h
    refine ⟨_, rfl, ?_, rfl⟩
    simp [Kept, Function.comp_def]
  | colorSequence ks =>
    cases h
    refine ⟨_, rfl, ?_, rfl⟩
    simp [Kept, Function.comp_def]
  | _ => cases h; exact ⟨_, rfl, rfl, rfl⟩

theorem newValue_type {t : TypeID} {d : Val} (h : newValue t = some d) : d.type = t := by
  cases t <;> cases h <;> rfl

theorem newValue_some {t : TypeID} (h : t ≠ .optional) : ∃ d, newValue t = some d := by
  cases t <;> first | exact ⟨_, rfl⟩ | exact absurd rfl h

theorem newValue_decode {σ : Type} (quat : Quat) {ty : Ty} {t : TypeID} {d : Val}
    (ht : fromValueType ty = some t) (h1 : t ≠ .reference) (h2 : t ≠ .sharedString)
    (h : newValue t = some d) :
    decodeValue quat d.canon = some (zeroValue (σ := σ) (binType ty)) := by
  cases ty <;> simp only [fromValueType, Option.some.injEq, reduceCtorEq] at ht <;> subst ht <;>
    first | (exfalso; exact h1 rfl) | (exfalso; exact h2 rfl) | (cases h; try rfl)

/-! ### planning -/

theorem planRest_ok {t : TypeID} {k : Kind} : ∀ {vs : List (Value ρ)} {r : Option Kind},
    planRest t k vs = .ok r →
    (r = none ∧ ∃ v ∈ vs, fromValueType v.type ≠ some t) ∨
    (r = some k ∧ ∀ v ∈ vs, fromValueType v.type = some t ∧
      ∀ typ o, v = .optional typ o → (fromValueType typ).map Kind.opt = some k) := by
  intro vs
  induction vs with
  | nil => intro r h; simp only [planRest, Res.ok.injEq] at h; subst h; right; simp
  | cons v vs ih =>
    intro r h
    unfold planRest at h
    split at h
    · rename_i hne
      cases h
      exact .inl ⟨rfl, v, by simp, hne⟩
    · rename_i heq
      have heq : fromValueType v.type = some t := Decidable.not_not.1 heq
      have step : planRest t k vs = .ok r →
          (∀ typ o, v = .optional typ o → (fromValueType typ).map Kind.opt = some k) →
          (r = none ∧ ∃ v' ∈ v :: vs, fromValueType v'.type ≠ some t) ∨
          (r = some k ∧ ∀ v' ∈ v :: vs, fromValueType v'.type = some t ∧
            ∀ typ o, v' = .optional typ o → (fromValueType typ).map Kind.opt = some k) := by
        intro h hv
        rcases ih h with ⟨h1, v', h2, h3⟩ | ⟨h1, h2⟩
        · exact .inl ⟨h1, v', List.mem_cons_of_mem _ h2, h3⟩
        · refine .inr ⟨h1, ?_⟩
          intro v' hv'
          rcases List.mem_cons.1 hv' with rfl | hv'
          · exact ⟨heq, hv⟩
          · exact h2 v' hv'
      split at h
      · rename_i typ o
        split at h
        · cases h
        · rename_i he
          refine step h ?_
          intro typ' o' e
          cases e
          exact Decidable.not_not.1 he
      · rename_i hno
        exact step h (fun typ o e => absurd e (hno typ o))

/-- What the plan of a property says about its values. -/
def PlanSpec (place : Bool) (vs : List (Value ρ)) : Kind → Prop
  | .plain t => t ≠ .optional ∧ (t = .uniqueId → place = true) ∧
      ∀ v ∈ vs, fromValueType v.type = some t
  | .opt e => ∀ v ∈ vs, ∃ typ o, v = .optional typ o ∧ fromValueType typ = some e

theorem planProp_ok {place : Bool} {insts : List (Inst ρ)} {name : Bytes} {r : Option Kind}
    (h : planProp place insts name = .ok r) :
    (r = none ∧ ¬ Written place (valuesOf insts name)) ∨
    (∃ k, r = some k ∧ Written place (valuesOf insts name) ∧
      PlanSpec place (valuesOf insts name) k) := by
  unfold planProp at h
  show (_ ∧ ¬ Written place (insts.filterMap fun i => i.properties.get? name)) ∨
    (∃ k, _ ∧ Written place (insts.filterMap fun i => i.properties.get? name) ∧
      PlanSpec place (insts.filterMap fun i => i.properties.get? name) k)
  generalize (insts.filterMap fun i => i.properties.get? name) = vs at h ⊢
  cases vs with
  | nil => cases h
  | cons v vs =>
    simp only at h
    cases ht : fromValueType v.type with
    | none => rw [ht] at h; cases h
    | some t =>
      rw [ht] at h
      simp only at h
      have drop : ∀ v' ∈ vs, fromValueType v'.type ≠ some t → ¬ Written place (v :: vs) := by
        rintro v' hv' hne ⟨_, u, hu, _⟩
        have e1 := hu v (by simp)
        have e2 := hu v' (List.mem_cons_of_mem _ hv')
        rw [← e1] at e2
        rw [binType_eq_iff, ht] at e2
        exact hne e2
      split at h
      · rename_i hu
        cases h
        left
        refine ⟨rfl, ?_⟩
        rintro ⟨_, u, hu', hp⟩
        simp only [Bool.and_eq_true, Bool.not_eq_true', decide_eq_true_eq] at hu
        have e1 := hu' v (by simp)
        rw [binType_eq, ht, hu.2] at e1
        have := hp e1.symm
        rw [hu.1] at this; cases this
      · rename_i hu
        have hu2 : t = .uniqueId → place = true := by
          intro e
          cases hpl : place with
          | true => rfl
          | false => exfalso; apply hu; simp [hpl, e]
        have wr : (∀ v' ∈ vs, fromValueType v'.type = some t) → Written place (v :: vs) := by
          intro hall
          refine ⟨by simp, binType v.type, ?_, ?_⟩
          · intro v' hv'
            rcases List.mem_cons.1 hv' with rfl | hv'
            · rfl
            · rw [binType_eq_iff, ht]; exact hall v' hv'
          · intro e
            apply hu2
            have := fromValueType_binType v.type
            rw [e, ht] at this
            simp only [fromValueType, Option.some.injEq] at this
            exact this.symm
        split at h
        · rename_i typ o
          cases he : fromValueType typ with
          | none => rw [he] at h; cases h
          | some e =>
            rw [he] at h
            simp only at h
            rcases planRest_ok h with ⟨rfl, v', hv', hne⟩ | ⟨rfl, hall⟩
            · exact .inl ⟨rfl, drop v' hv' hne⟩
            · refine .inr ⟨_, rfl, wr (fun v' hv' => (hall v' hv').1), ?_⟩
              intro v' hv'
              rcases List.mem_cons.1 hv' with rfl | hv'
              · exact ⟨typ, o, rfl, he⟩
              · obtain ⟨g1, g2⟩ := hall v' hv'
                simp only [Value.type, fromValueType, Option.some.injEq] at ht
                subst ht
                have hopt : ∃ typ' o', v' = .optional typ' o' := by
                  cases v' <;> first
                    | exact ⟨_, _, rfl⟩
                    | (simp [Value.type, fromValueType] at g1; done)
                obtain ⟨typ', o', rfl⟩ := hopt
                refine ⟨typ', o', rfl, ?_⟩
                have := g2 typ' o' rfl
                simpa using this
        · rename_i hno
          rcases planRest_ok h with ⟨rfl, v', hv', hne⟩ | ⟨rfl, hall⟩
          · exact .inl ⟨rfl, drop v' hv' hne⟩
          · refine .inr ⟨_, rfl, wr (fun v' hv' => (hall v' hv').1), ?_, hu2, ?_⟩
            · rintro rfl
              cases v <;> simp [Value.type, fromValueType] at ht
              exact hno _ _ rfl
            · intro v' hv'
              rcases List.mem_cons.1 hv' with rfl | hv'
              · exact ht
              · exact (hall v' hv').1

/-! ### filling -/

/-- `b` is what is stored in an array of type `t` for an instance with the value `own`; `sh` are the
shared strings. -/
def Enc (hash : Bytes → Bytes) (ref : Option ρ → BitVec 32) (t : TypeID) (sh : Shared)
    (own : Option (Value ρ)) (b : Val) : Prop :=
  b.type = t ∧
  match own with
  | none => newValue t = some b
  | some (.reference p) => b = .reference (ref p)
  | some (.sharedString s) => ∃ (k : Nat) (e : Bytes × Bytes), b = .sharedString (BitVec.ofNat 32 k) ∧
      sh[k]? = some e ∧ e.1 = hash s
  | some v => encodeValue v = some b

theorem prefix_getElem? {α : Type} {l l' : List α} (h : l <+: l') {k : Nat} {e : α}
    (hk : l[k]? = some e) : l'[k]? = some e := by
  obtain ⟨r, rfl⟩ := h
  have := (List.getElem?_eq_some_iff.1 hk).1
  rw [List.getElem?_append_left this, hk]

theorem Enc.mono {hash : Bytes → Bytes} {ref : Option ρ → BitVec 32} {t : TypeID} {sh sh' : Shared}
    {own : Option (Value ρ)} {b : Val} (hp : sh <+: sh') (h : Enc hash ref t sh own b) :
    Enc hash ref t sh' own b := by
  obtain ⟨h1, h2⟩ := h
  refine ⟨h1, ?_⟩
  split at h2
  · exact h2
  · exact h2
  · obtain ⟨k, e, g1, g2, g3⟩ := h2
    exact ⟨k, e, g1, prefix_getElem? hp g2, g3⟩
  · simp_all

/-- The shared strings collected so far: distinct hashes, all from the tree (`used`). -/
def SharedOk (hash : Bytes → Bytes) (used : Bytes → Prop) (sh : Shared) : Prop :=
  (∀ e ∈ sh, e.1 = hash e.2 ∧ used e.2) ∧ (sh.map Prod.fst).Nodup

theorem intern_ok {hash : Bytes → Bytes} {used : Bytes → Prop} {sh : Shared} {s : Bytes}
    (hs : used s) (h : SharedOk hash used sh) :
    sh <+: (intern hash sh s).2 ∧ SharedOk hash used (intern hash sh s).2 ∧
    ∃ (k : Nat) (e : Bytes × Bytes), (intern hash sh s).1 = BitVec.ofNat 32 k ∧
      (intern hash sh s).2[k]? = some e ∧ e.1 = hash s := by
  unfold intern
  cases hf : sh.findIdx? fun e => e.1 == hash s with
  | some i =>
    obtain ⟨hi, hp, _⟩ := List.findIdx?_eq_some_iff_getElem.1 hf
    refine ⟨List.prefix_rfl, h, i, sh[i], rfl, List.getElem?_eq_getElem hi, by simpa using hp⟩
  | none =>
    rw [List.findIdx?_eq_none_iff] at hf
    refine ⟨List.prefix_append _ _, ⟨?_, ?_⟩, sh.length, (hash s, s), rfl, by simp, rfl⟩
    · intro e he
      rcases List.mem_append.1 he with he | he
      · exact h.1 e he
      · simp only [List.mem_singleton] at he; subst he; exact ⟨rfl, hs⟩
    · rw [List.map_append, List.nodup_append]
      refine ⟨h.2, by simp, ?_⟩
      intro a ha b hb e
      simp only [List.map_cons, List.map_nil, List.mem_singleton] at hb
      subst hb; subst e
      obtain ⟨x, hx, hx2⟩ := List.mem_map.1 ha
      have := hf x hx
      simp [hx2] at this

theorem fillValue_ok {hash : Bytes → Bytes} {ref : Option ρ → BitVec 32} {t : TypeID}
    {used : Bytes → Prop} {own : Option (Value ρ)} {sh sh' : Shared} {b : Val}
    (hto : t ≠ .optional) (ht : ∀ v, own = some v → fromValueType v.type = some t)
    (hu : ∀ s, own = some (.sharedString s) → used s)
    (hs : SharedOk hash used sh) (h : fillValue hash ref t own sh = .ok (b, sh')) :
    sh <+: sh' ∧ SharedOk hash used sh' ∧ Enc hash ref t sh' own b := by
  cases own with
  | none =>
    simp only [fillValue] at h
    obtain ⟨d, hd⟩ := newValue_some hto
    rw [hd] at h
    cases h
    exact ⟨List.prefix_rfl, hs, newValue_type hd, hd⟩
  | some v =>
    have htv := ht v rfl
    by_cases hr : ∃ p, v = .reference p
    · obtain ⟨p, rfl⟩ := hr
      simp only [Value.type, fromValueType, Option.some.injEq] at htv
      subst htv
      simp only [fillValue, Val.type, if_true, Res.ok.injEq, Prod.mk.injEq] at h
      obtain ⟨rfl, rfl⟩ := h
      exact ⟨List.prefix_rfl, hs, rfl, rfl⟩
    · by_cases hsh : ∃ s, v = .sharedString s
      · obtain ⟨s, rfl⟩ := hsh
        simp only [Value.type, fromValueType, Option.some.injEq] at htv
        subst htv
        simp only [fillValue, Val.type, if_true, Res.ok.injEq, Prod.mk.injEq] at h
        obtain ⟨rfl, rfl⟩ := h
        obtain ⟨g1, g2, k, e, g3, g4, g5⟩ := intern_ok (hu s rfl) hs
        exact ⟨g1, g2, rfl, k, e, by rw [g3], g4, g5⟩
      · have hpl : Value.plainValue v := by
          cases v <;> simp only [Value.plainValue]
          · exact hr ⟨_, rfl⟩
          · exact hsh ⟨_, rfl⟩
          · simp only [Value.type, fromValueType, Option.some.injEq] at htv
            exact hto htv.symm
        obtain ⟨b', h1, h2⟩ := encodeValue_some v hpl
        have hb : b'.type = t := by rw [htv] at h2; exact (Option.some.inj h2).symm
        have hf : fillValue hash ref t (some v) sh = .ok (b', sh) := by
          cases v <;> first | exact hpl.elim | simp only [fillValue, h1, hb, if_true]
        rw [hf] at h
        cases h
        refine ⟨List.prefix_rfl, hs, hb, ?_⟩
        cases v <;> first | exact hpl.elim | exact h1

theorem fillPlain_ok {hash : Bytes → Bytes} {ref : Option ρ → BitVec 32} {t : TypeID}
    {used : Bytes → Prop} {name : Bytes} (hto : t ≠ .optional) :
    ∀ {insts : List (Inst ρ)} {sh sh' : Shared} {vs : List Val},
    (∀ v ∈ valuesOf insts name, fromValueType v.type = some t) →
    (∀ s, .sharedString s ∈ valuesOf insts name → used s) →
    SharedOk hash used sh → fillPlain hash ref t name insts sh = .ok (vs, sh') →
    sh <+: sh' ∧ SharedOk hash used sh' ∧
      List.Forall₂ (fun i b => Enc hash ref t sh' (i.properties.get? name) b) insts vs := by
  intro insts
  induction insts with
  | nil =>
    intro sh sh' vs _ _ hs h
    simp only [fillPlain, Res.ok.injEq, Prod.mk.injEq] at h
    obtain ⟨rfl, rfl⟩ := h
    exact ⟨List.prefix_rfl, hs, .nil⟩
  | cons i is ih =>
    intro sh sh' vs ht hu hs h
    simp only [fillPlain, Res.bind_eq_ok, Res.pure_eq, Res.ok.injEq] at h
    obtain ⟨⟨b, sh1⟩, h1, ⟨bs, sh2⟩, h2, h3⟩ := h
    simp only [Prod.mk.injEq] at h3
    obtain ⟨rfl, rfl⟩ := h3
    have hmem : ∀ v, i.properties.get? name = some v → v ∈ valuesOf (i :: is) name := by
      intro v hv
      simp [valuesOf, hv]
    have hsub : ∀ v ∈ valuesOf is name, v ∈ valuesOf (i :: is) name := by
      intro v hv
      simp only [valuesOf, List.filterMap_cons] at hv ⊢
      split
      · exact hv
      · exact List.mem_cons_of_mem _ hv
    obtain ⟨g1, g2, g3⟩ := fillValue_ok hto (fun v hv => ht v (hmem v hv))
      (fun s hv => hu s (hmem _ hv)) hs h1
    obtain ⟨k1, k2, k3⟩ := ih (fun v hv => ht v (hsub v hv)) (fun s hv => hu s (hsub _ hv)) g2 h2
    exact ⟨g1.trans k1, k2, .cons (g3.mono k1) k3⟩

/-- What is stored in an optional array with elements of type `t`. -/
def EncOpt (t : TypeID) (own : Option (Value ρ)) (x : Val × Bool) : Prop :=
  x.1.type = t ∧ (x.2 = false → newValue t = some x.1) ∧
  match own with
  | some (.optional _ (some v)) => (x.2 = true ∧ encodeValue v = some x.1) ∨
      (x.2 = false ∧ encodeValue v = none)
  | _ => x.2 = false

theorem fillOpt_ok {t : TypeID} {own : Option (Value ρ)} {x : Val × Bool}
    (h : fillOpt t own = .ok x) : EncOpt t own x := by
  unfold fillOpt at h
  have dflt : (match newValue t with
      | some d => Res.ok (d, false)
      | none => .panic) = .ok x → x.1.type = t ∧ (x.2 = false → newValue t = some x.1) ∧ x.2 = false := by
    intro h
    cases hd : newValue t with
    | none => rw [hd] at h; cases h
    | some d => rw [hd] at h; cases h; exact ⟨newValue_type hd, fun _ => rfl, rfl⟩
  cases own with
  | none => exact dflt h
  | some v =>
    by_cases hv : ∃ ty o, v = .optional ty (some o)
    · obtain ⟨ty, o, rfl⟩ := hv
      simp only at h
      cases he : encodeValue o with
      | none =>
        rw [he] at h
        obtain ⟨h1, h0, h2⟩ := dflt h
        exact ⟨h1, h0, .inr ⟨h2, he⟩⟩
      | some b =>
        rw [he] at h
        simp only at h
        split at h
        · rename_i hb; cases h; exact ⟨hb, nofun, .inl ⟨rfl, he⟩⟩
        · cases h
    · cases v <;> first
        | (exact dflt h)
        | (rename_i ty o
           cases o with
           | none => exact dflt h
           | some o => exact absurd ⟨ty, o, rfl⟩ hv)

theorem fillOpts_ok {t : TypeID} {name : Bytes} : ∀ {insts : List (Inst ρ)} {xs : List (Val × Bool)},
    fillOpts t name insts = .ok xs →
    List.Forall₂ (fun i x => EncOpt t (i.properties.get? name) x) insts xs := by
  intro insts
  induction insts with
  | nil => intro xs h; simp only [fillOpts, Res.ok.injEq] at h; subst h; exact .nil
  | cons i is ih =>
    intro xs h
    simp only [fillOpts, Res.bind_eq_ok, Res.pure_eq, Res.ok.injEq] at h
    obtain ⟨x, h1, ys, h2, rfl⟩ := h
    exact .cons (fillOpt_ok h1) (ih h2)

end Rbxl

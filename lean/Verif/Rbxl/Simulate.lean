import Verif.Rbxl.EncOrder
/-!
# Trees that are written alike

Two trees, possibly with pointers of different types, that `robloxCodec.Encode` turns into the same file.
-/
namespace Rbxl
open Go Rbxfile Spec

/-! ### Values that are not stored do not matter -/

theorem Val.bytes_canon (v : Val) : v.canon.bytes = v.bytes := by
  cases v <;> simp only [Val.canon]
  case cframe sp r p => split <;> simp_all [Val.bytes]
  case cframeQuat sp x y z w p => split <;> simp_all [Val.bytes]
  case physicalProperties cp a b c d e => split <;> simp_all [Val.bytes]

theorem Val.head_canon (v : Val) : v.canon.cframeHead = v.cframeHead := by
  cases v <;> simp only [Val.canon]
  case cframe sp r p => split <;> simp_all [Val.cframeHead]
  case cframeQuat sp x y z w p => split <;> simp_all [Val.cframeHead]
  case physicalProperties cp a b c d e => split <;> simp_all [Val.cframeHead]

theorem Val.pos_canon (v : Val) : v.canon.cframePos = v.cframePos := by
  cases v <;> simp only [Val.canon]
  case cframe sp r p => split <;> simp_all [Val.cframePos]
  case cframeQuat sp x y z w p => split <;> simp_all [Val.cframePos]
  case physicalProperties cp a b c d e => split <;> simp_all [Val.cframePos]

theorem Val.refNum_canon (v : Val) : v.canon.refNum = v.refNum := by
  cases v <;> simp only [Val.canon]
  case cframe sp r p => split <;> simp_all [Val.refNum]
  case cframeQuat sp x y z w p => split <;> simp_all [Val.refNum]
  case physicalProperties cp a b c d e => split <;> simp_all [Val.refNum]

theorem Val.type_canon (v : Val) : v.canon.type = v.type := by
  cases v <;> simp only [Val.canon]
  case cframe sp r p => split <;> rfl
  case cframeQuat sp x y z w p => split <;> rfl
  case physicalProperties cp a b c d e => split <;> rfl

theorem flatMap_canon {α : Type} (g : Val → List α) (hg : ∀ v, g v.canon = g v) (vs : List Val) :
    (vs.map Val.canon).flatMap g = vs.flatMap g := by
  rw [List.flatMap_map]
  congr 1
  funext v
  exact hg v

theorem plainToBytes_canon (t : TypeID) (vs : List Val) :
    plainToBytes t (vs.map Val.canon) = plainToBytes t vs := by
  have h1 := flatMap_canon _ Val.bytes_canon vs
  have h2 := flatMap_canon _ Val.head_canon vs
  have h3 := flatMap_canon (fun v => v.cframePos.bytes) (fun v => by rw [Val.pos_canon]) vs
  have h4 : (vs.map Val.canon).map Val.refNum = vs.map Val.refNum := by
    rw [List.map_map]; exact List.map_congr_left fun v _ => Val.refNum_canon v
  have : plainBytes t (vs.map Val.canon) = plainBytes t vs := by
    cases t <;> simp only [plainBytes, cframesBytes, h1, h2, h3, h4]
  simp only [plainToBytes, this]

theorem Arr.type_canon (a : Arr) : a.canon.type = a.type := by cases a <;> rfl

theorem Arr.toBytes_canon : ∀ a : Arr, a.canon.toBytes = a.toBytes
  | .plain t vs => by simp only [Arr.canon, Arr.toBytes, plainToBytes_canon]
  | .optNil _ => rfl
  | .optional a p => by simp only [Arr.canon, Arr.toBytes, Arr.toBytes_canon a, Arr.type_canon]

theorem Body.payload_canon (b : Body) : b.canon.payload = b.payload := by
  cases b <;> try rfl
  case inst c =>
    simp only [Body.canon, Body.payload, InstChunk.canon]
    cases c.isService <;> rfl
  case prop c =>
    simp only [Body.canon, Body.payload]
    cases c.props <;> simp only [Option.map_none, Option.map_some, typeArrayToBytes, Arr.toBytes_canon, Arr.type_canon]

theorem Body.sig_canon (b : Body) : b.canon.sig = b.sig := by cases b <;> rfl

theorem writeChunk_congr (lz : LZ4) (u : Bool) {c c' : Chunk} (h : c.body.canon = c'.body.canon)
    (hc : c.compressed = c'.compressed) : writeChunk lz u c = writeChunk lz u c' := by
  have h1 : c.body.payload = c'.body.payload := by rw [← Body.payload_canon, h, Body.payload_canon]
  have h2 : c.body.sig = c'.body.sig := by rw [← Body.sig_canon, h, Body.sig_canon]
  simp only [writeChunk, h1, h2, hc]

theorem writeChunks_congr (lz : LZ4) (u : Bool) : ∀ {cs cs' : List Chunk},
    cs.map (fun c => (c.body.canon, c.compressed)) = cs'.map (fun c => (c.body.canon, c.compressed)) →
    writeChunks lz u cs = writeChunks lz u cs' := by
  intro cs
  induction cs with
  | nil => intro cs' h; have : cs' = [] := by simpa using h.symm
           subst this; rfl
  | cons c cs ih =>
    intro cs' h
    cases cs' with
    | nil => simp at h
    | cons c' cs' =>
      simp only [List.map_cons, List.cons.injEq, Prod.mk.injEq] at h
      simp only [writeChunks, writeChunk_congr lz u h.1.1 h.1.2, ih h.2]

/-! ### One array -/

variable {ρ σ : Type}

/-- A value that is stored alike: `ref` and `ref'` are the numbers of the instances. -/
def SameVal (ref : Option ρ → BitVec 32) (ref' : Option σ → BitVec 32) : Value ρ → Value σ → Prop
  | .reference p, w => ∃ q, w = .reference q ∧ ref' q = ref p
  | .sharedString s, w => w = .sharedString s
  | v, w => ∃ b b', encodeValue v = some b ∧ encodeValue w = some b' ∧ b'.canon = b.canon

/-- A value that is stored like no value at all; `s0` is the first shared string. -/
def SameNone (ref' : Option σ → BitVec 32) (s0 : Bytes) : TypeID → Value σ → Prop
  | .reference, w => ∃ q, w = .reference q ∧ ref' q = 0
  | .sharedString, w => w = .sharedString s0
  | t, w => ∃ d b', newValue t = some d ∧ encodeValue w = some b' ∧ b'.canon = d.canon

/-- The property of an instance in an array of type `t` is stored alike. -/
def SameOwn (ref : Option ρ → BitVec 32) (ref' : Option σ → BitVec 32) (s0 : Bytes) (t : TypeID) :
    Option (Value ρ) → Option (Value σ) → Prop
  | none, none => True
  | none, some w => SameNone ref' s0 t w
  | some v, some w => SameVal ref ref' v w
  | some _, none => False

/-- The shared strings collected from the two trees: equal, but for a first shared string that the first tree does not have yet. -/
def Link (hash : Bytes → Bytes) (s0 : Bytes) (sh sh' : Shared) : Prop :=
  sh' = sh ∨ (sh = [] ∧ sh' = [(hash s0, s0)])

/-- The first shared string. -/
def Begins (hash : Bytes → Bytes) (s0 : Bytes) (sh : Shared) : Prop :=
  ∀ x rest, sh = x :: rest → x = (hash s0, s0)

theorem Begins.prefix {hash : Bytes → Bytes} {s0 : Bytes} {a b : Shared} (h : Begins hash s0 b) (hp : a <+: b) :
    Begins hash s0 a := by
  intro x rest e
  obtain ⟨r, rfl⟩ := hp
  subst e
  exact h x (rest ++ r) rfl

theorem intern_first {hash : Bytes → Bytes} {s0 : Bytes} {sh : Shared} (h : Begins hash s0 sh) :
    intern hash sh s0 = (0, if sh = [] then [(hash s0, s0)] else sh) := by
  cases sh with
  | nil => rfl
  | cons x rest =>
    have := h x rest rfl
    subst this
    simp [intern, List.findIdx?_cons]

theorem fillValue_same {hash : Bytes → Bytes} {ref : Option ρ → BitVec 32} {ref' : Option σ → BitVec 32} {s0 : Bytes}
    {t : TypeID} {own : Option (Value ρ)} {own' : Option (Value σ)} (ho : SameOwn ref ref' s0 t own own')
    (hto : t ≠ .optional) (ht : ∀ v, own = some v → fromValueType v.type = some t)
    {sh sh' sh1 : Shared} {b : Val} (hl : Link hash s0 sh sh')
    (h : fillValue hash ref t own sh = .ok (b, sh1)) (hb : Begins hash s0 sh1) :
    ∃ b' sh1', fillValue hash ref' t own' sh' = .ok (b', sh1') ∧ b'.canon = b.canon ∧ Link hash s0 sh1 sh1' ∧
      (∀ s, own = some (.sharedString s) → sh1 ≠ []) ∧ (t ≠ .sharedString → sh1 = sh ∧ sh1' = sh') := by
  -- what is stored for a value that is neither a reference nor a shared string
  have plain : ∀ (w : Value σ) (b' : Val), encodeValue w = some b' → b'.type = t →
      fillValue hash ref' t (some w) sh' = .ok (b', sh') := by
    intro w b' hw hty
    have := encodeValue_plain hw
    cases w <;> first | exact this.elim | simp only [fillValue, hw, hty, if_true]
  have typ : ∀ {b b' : Val}, b'.canon = b.canon → b.type = t → b'.type = t := by
    intro b b' e hty
    rw [← Val.type_canon, e, Val.type_canon, hty]
  cases own with
  | none =>
    obtain ⟨d, hd⟩ := newValue_some hto
    simp only [fillValue, hd, Res.ok.injEq, Prod.mk.injEq] at h
    obtain ⟨rfl, rfl⟩ := h
    cases own' with
    | none => exact ⟨d, sh', by simp only [fillValue, hd], rfl, hl, nofun, fun _ => ⟨rfl, rfl⟩⟩
    | some w =>
      simp only [SameOwn] at ho
      by_cases hr : t = .reference
      · subst hr
        obtain ⟨q, rfl, hq⟩ := ho
        cases hd
        exact ⟨.reference (ref' q), sh', by simp [fillValue, Val.type], by rw [hq], hl, nofun, fun _ => ⟨rfl, rfl⟩⟩
      · by_cases hs : t = .sharedString
        · subst hs
          cases ho
          cases hd
          have hfirst : Begins hash s0 sh' := by
            rcases hl with rfl | ⟨_, rfl⟩
            · exact hb
            · rintro x rest ⟨⟩; rfl
          refine ⟨.sharedString 0, if sh' = [] then [(hash s0, s0)] else sh', ?_, rfl, ?_, nofun, fun h => absurd rfl h⟩
          · simp only [fillValue, intern_first hfirst, Val.type, if_true]
          · rcases hl with rfl | ⟨rfl, rfl⟩
            · by_cases h0 : sh' = []
              · rw [if_pos h0]; exact .inr ⟨h0, rfl⟩
              · rw [if_neg h0]; exact .inl rfl
            · exact .inr ⟨rfl, rfl⟩
        · have : ∃ d b', newValue t = some d ∧ encodeValue w = some b' ∧ b'.canon = d.canon := by
            cases t <;> first | exact ho | exact absurd rfl hr | exact absurd rfl hs
          obtain ⟨d', b', h1, h2, h3⟩ := this
          rw [hd] at h1
          cases h1
          exact ⟨b', sh', plain w b' h2 (typ h3 (newValue_type hd)), h3, hl, nofun, fun _ => ⟨rfl, rfl⟩⟩
  | some v =>
    cases own' with
    | none => exact ho.elim
    | some w =>
      have htv := ht v rfl
      simp only [SameOwn] at ho
      by_cases hr : ∃ p, v = .reference p
      · obtain ⟨p, rfl⟩ := hr
        simp only [Value.type, fromValueType, Option.some.injEq] at htv
        subst htv
        obtain ⟨q, rfl, hq⟩ := ho
        simp only [fillValue, Val.type, if_true, Res.ok.injEq, Prod.mk.injEq] at h
        obtain ⟨rfl, rfl⟩ := h
        exact ⟨.reference (ref' q), sh', by simp [fillValue, Val.type], by rw [hq], hl, nofun, fun _ => ⟨rfl, rfl⟩⟩
      · by_cases hsh : ∃ s, v = .sharedString s
        · obtain ⟨s, rfl⟩ := hsh
          simp only [Value.type, fromValueType, Option.some.injEq] at htv
          subst htv
          cases ho
          simp only [fillValue, Val.type, if_true, Res.ok.injEq, Prod.mk.injEq] at h
          obtain ⟨rfl, rfl⟩ := h
          have hne : (intern hash sh s).2 ≠ [] := by
            unfold intern
            cases hf : sh.findIdx? fun e => e.1 == hash s with
            | none => simp
            | some i => intro h0; simp only at h0; rw [h0] at hf; simp at hf
          refine ⟨.sharedString (intern hash sh' s).1, (intern hash sh' s).2, by simp [fillValue, Val.type], ?_, ?_,
            fun _ _ => hne, fun h => absurd rfl h⟩
          · rcases hl with rfl | ⟨rfl, rfl⟩
            · rfl
            · have := hb (hash s, s) [] rfl
              rw [Prod.mk.injEq] at this
              obtain ⟨_, rfl⟩ := this
              rw [intern_first (s0 := s) (sh := [(hash s, s)]) (by rintro x rest ⟨⟩; rfl)]
              rfl
          · rcases hl with rfl | ⟨rfl, rfl⟩
            · exact .inl rfl
            · have := hb (hash s, s) [] rfl
              rw [Prod.mk.injEq] at this
              obtain ⟨_, rfl⟩ := this
              rw [intern_first (s0 := s) (sh := [(hash s, s)]) (by rintro x rest ⟨⟩; rfl)]
              exact .inl rfl
        · have : ∃ b b', encodeValue v = some b ∧ encodeValue w = some b' ∧ b'.canon = b.canon := by
            cases v <;> first | exact ho | exact absurd ⟨_, rfl⟩ hr | exact absurd ⟨_, rfl⟩ hsh
          obtain ⟨b0, b', h1, h2, h3⟩ := this
          have hty : b0.type = t := by
            have := encodeValue_type h1
            rw [htv] at this
            exact (Option.some.inj this).symm
          have hf : fillValue hash ref t (some v) sh = .ok (b0, sh) := by
            have := encodeValue_plain h1
            cases v <;> first | exact this.elim | simp only [fillValue, h1, hty, if_true]
          rw [hf] at h
          cases h
          exact ⟨b', sh', plain w b' h2 (typ h3 hty), h3, hl, fun s e => absurd ⟨s, Option.some.inj e⟩ hsh,
            fun _ => ⟨rfl, rfl⟩⟩

theorem intern_prefix (hash : Bytes → Bytes) (sh : Shared) (s : Bytes) : sh <+: (intern hash sh s).2 := by
  unfold intern
  split
  · exact List.prefix_rfl
  · exact List.prefix_append _ _

theorem fillValue_prefix {hash : Bytes → Bytes} {ref : Option ρ → BitVec 32} {t : TypeID} {own : Option (Value ρ)}
    {sh sh1 : Shared} {b : Val} (h : fillValue hash ref t own sh = .ok (b, sh1)) : sh <+: sh1 := by
  have key : ∀ (r : Option Val × Shared), sh <+: r.2 → (match r.1 with
      | some b => if b.type = t then Res.ok (b, r.2) else match newValue t with
        | some d => .ok (d, r.2)
        | none => .panic
      | none => match newValue t with
        | some d => .ok (d, r.2)
        | none => .panic) = .ok (b, sh1) → sh <+: sh1 := by
    intro r hr h
    repeat' split at h
    all_goals first
      | (simp only [Res.ok.injEq, Prod.mk.injEq] at h; rw [← h.2]; exact hr)
      | cases h
  refine key _ ?_ h
  cases own with
  | none => exact List.prefix_rfl
  | some v => cases v <;> first | exact List.prefix_rfl | exact intern_prefix _ _ _

theorem fillPlain_prefix {hash : Bytes → Bytes} {ref : Option ρ → BitVec 32} {t : TypeID} {name : Bytes} :
    ∀ {is : List (Inst ρ)} {sh sh1 : Shared} {vs : List Val},
    fillPlain hash ref t name is sh = .ok (vs, sh1) → sh <+: sh1 := by
  intro is
  induction is with
  | nil => intro sh sh1 vs h; cases h; exact List.prefix_rfl
  | cons i is ih =>
    intro sh sh1 vs h
    simp only [fillPlain, Res.bind_eq_ok, Res.pure_eq, Res.ok.injEq] at h
    obtain ⟨⟨b, sh2⟩, h1, ⟨bs, sh3⟩, h2, h3⟩ := h
    simp only [Prod.mk.injEq] at h3
    obtain ⟨rfl, rfl⟩ := h3
    exact (fillValue_prefix h1).trans (ih h2)

theorem fillPlain_same {hash : Bytes → Bytes} {ref : Option ρ → BitVec 32} {ref' : Option σ → BitVec 32} {s0 : Bytes}
    {t : TypeID} {name : Bytes} (hto : t ≠ .optional) : ∀ {is : List (Inst ρ)} {js : List (Inst σ)},
    List.Forall₂ (fun i j => SameOwn ref ref' s0 t (i.properties.get? name) (j.properties.get? name)) is js →
    (∀ v ∈ valuesOf is name, fromValueType v.type = some t) →
    ∀ {sh sh' sh1 : Shared} {vs : List Val}, Link hash s0 sh sh' →
    fillPlain hash ref t name is sh = .ok (vs, sh1) → Begins hash s0 sh1 →
    ∃ vs' sh1', fillPlain hash ref' t name js sh' = .ok (vs', sh1') ∧ vs'.map Val.canon = vs.map Val.canon ∧
      Link hash s0 sh1 sh1' ∧ (∀ s, .sharedString s ∈ valuesOf is name → sh1 ≠ []) ∧
      (t ≠ .sharedString → sh1 = sh ∧ sh1' = sh') := by
  intro is js hall
  induction hall with
  | nil =>
    intro _ sh sh' sh1 vs hl h hb
    simp only [fillPlain, Res.ok.injEq, Prod.mk.injEq] at h
    obtain ⟨rfl, rfl⟩ := h
    exact ⟨[], sh', rfl, rfl, hl, by simp [valuesOf], fun _ => ⟨rfl, rfl⟩⟩
  | @cons i j is js hij _ ih =>
    intro ht sh sh' sh1 vs hl h hb
    simp only [fillPlain, Res.bind_eq_ok, Res.pure_eq, Res.ok.injEq] at h
    obtain ⟨⟨b, sh2⟩, h1, ⟨bs, sh3⟩, h2, h3⟩ := h
    simp only [Prod.mk.injEq] at h3
    obtain ⟨rfl, rfl⟩ := h3
    have hmem : ∀ v, i.properties.get? name = some v → v ∈ valuesOf (i :: is) name := by
      intro v hv
      simp [valuesOf, hv]
    have hsub : ∀ v ∈ valuesOf is name, v ∈ valuesOf (i :: is) name := by
      intro v hv
      simp only [valuesOf, List.filterMap_cons] at hv ⊢
      split
      · exact hv
      · exact List.mem_cons_of_mem _ hv
    have hpre : sh2 <+: sh3 := fillPlain_prefix h2
    obtain ⟨b', sh2', g1, g2, g3, g4, g5⟩ := fillValue_same hij hto (fun v hv => ht v (hmem v hv)) hl h1 (hb.prefix hpre)
    obtain ⟨bs', sh3', k1, k2, k3, k4, k5⟩ := ih (fun v hv => ht v (hsub v hv)) g3 h2 hb
    refine ⟨b' :: bs', sh3', by simp only [fillPlain, g1, k1, Res.ok_bind, Res.pure_eq], ?_, k3, ?_, fun h => ?_⟩
    · simp only [List.map_cons, g2, k2]
    · intro s hs
      rcases hv : i.properties.get? name with _ | v
      · exact k4 s (by simpa [valuesOf, hv] using hs)
      · have hs' : Value.sharedString s = v ∨ .sharedString s ∈ valuesOf is name := by
          simpa [valuesOf, hv] using hs
        rcases hs' with hs' | hs'
        · intro h0
          rw [h0, List.prefix_nil] at hpre
          exact g4 s (by rw [hv, hs']) hpre
        · exact k4 s hs'
    · obtain ⟨x1, x2⟩ := g5 h
      obtain ⟨y1, y2⟩ := k5 h
      exact ⟨y1.trans x1, y2.trans x2⟩

/-- The value in an optional, as stored. -/
def optVal (own : Option (Value ρ)) : Option Val :=
  match own with
  | some (.optional _ (some v)) => encodeValue v
  | _ => none

/-- Optional properties stored alike. -/
def SameOpt (own : Option (Value ρ)) (own' : Option (Value σ)) : Prop :=
  (optVal own').map Val.canon = (optVal own).map Val.canon

theorem fillOpt_eq (t : TypeID) (own : Option (Value ρ)) : fillOpt t own = match optVal own with
    | some b => if b.type = t then .ok (b, true) else .panic
    | none => match newValue t with
      | some d => .ok (d, false)
      | none => .panic := rfl

theorem fillOpt_same {t : TypeID} {own : Option (Value ρ)} {own' : Option (Value σ)} (ho : SameOpt own own')
    {x : Val × Bool} (h : fillOpt t own = .ok x) :
    ∃ x', fillOpt t own' = .ok x' ∧ x'.1.canon = x.1.canon ∧ x'.2 = x.2 := by
  rw [fillOpt_eq] at h ⊢
  unfold SameOpt at ho
  rcases h1 : optVal own with _ | b
  · rw [h1] at h ho
    simp only [Option.map_none, Option.map_eq_none_iff] at ho
    rw [ho]
    exact ⟨x, h, rfl, rfl⟩
  · rw [h1] at h ho
    simp only [Option.map_some, Option.map_eq_some_iff] at ho
    obtain ⟨b', h2, h3⟩ := ho
    rw [h2]
    simp only at h ⊢
    split at h
    · rename_i hb
      cases h
      have : b'.type = t := by rw [← Val.type_canon, h3, Val.type_canon, hb]
      exact ⟨(b', true), by rw [if_pos this], h3, rfl⟩
    · cases h

theorem fillOpts_same {t : TypeID} {name : Bytes} : ∀ {is : List (Inst ρ)} {js : List (Inst σ)},
    List.Forall₂ (fun i j => SameOpt (i.properties.get? name) (j.properties.get? name)) is js →
    ∀ {xs : List (Val × Bool)}, fillOpts t name is = .ok xs →
    ∃ xs', fillOpts t name js = .ok xs' ∧ (xs'.map Prod.fst).map Val.canon = (xs.map Prod.fst).map Val.canon ∧
      xs'.map Prod.snd = xs.map Prod.snd := by
  intro is js hall
  induction hall with
  | nil => intro xs h; cases h; exact ⟨[], rfl, rfl, rfl⟩
  | cons hij _ ih =>
    intro xs h
    simp only [fillOpts, Res.bind_eq_ok, Res.pure_eq, Res.ok.injEq] at h
    obtain ⟨x, h1, ys, h2, rfl⟩ := h
    obtain ⟨x', g1, g2, g3⟩ := fillOpt_same hij h1
    obtain ⟨ys', k1, k2, k3⟩ := ih h2
    exact ⟨x' :: ys', by simp only [fillOpts, g1, k1, Res.ok_bind, Res.pure_eq], by simp only [List.map_cons, g2, k2],
      by simp only [List.map_cons, g3, k3]⟩

/-! ### One class -/

/-- The property `p` of the instances of a class is stored alike. -/
def SameProp (ref : Option ρ → BitVec 32) (ref' : Option σ → BitVec 32) (s0 : Bytes) (is : List (Inst ρ))
    (js : List (Inst σ)) (p : Bytes × Kind) : Prop :=
  match p.2 with
  | .plain t => t ≠ .optional ∧ (∀ v ∈ valuesOf is p.1, fromValueType v.type = some t) ∧
      (t = .sharedString → ∃ s, .sharedString s ∈ valuesOf is p.1) ∧
      List.Forall₂ (fun i j => SameOwn ref ref' s0 t (i.properties.get? p.1) (j.properties.get? p.1)) is js
  | .opt _ => List.Forall₂ (fun i j => SameOpt (i.properties.get? p.1) (j.properties.get? p.1)) is js

/-- The chunk as it is stored. -/
def PropChunk.canon (c : PropChunk) : PropChunk := { c with props := c.props.map Arr.canon }

theorem fillProp_same {hash : Bytes → Bytes} {ref : Option ρ → BitVec 32} {ref' : Option σ → BitVec 32} {s0 : Bytes}
    {cid : BitVec 32} {is : List (Inst ρ)} {js : List (Inst σ)} {p : Bytes × Kind} (hp : SameProp ref ref' s0 is js p)
    {sh sh1 : Shared} {c : PropChunk} (h : fillProp hash ref cid is p sh = .ok (c, sh1)) (hb : Begins hash s0 sh1) :
    ∃ c', fillProp hash ref' cid js p sh = .ok (c', sh1) ∧ c'.canon = c.canon := by
  obtain ⟨n, k⟩ := p
  cases k with
  | plain t =>
    obtain ⟨a1, a2, a3, a4⟩ := hp
    simp only [fillProp, Res.bind_eq_ok, Res.pure_eq, Res.ok.injEq] at h
    obtain ⟨⟨vs, sh0⟩, e1, e2⟩ := h
    simp only [Prod.mk.injEq] at e2
    obtain ⟨rfl, rfl⟩ := e2
    obtain ⟨vs', sh1', g1, g2, g3, g4, g6⟩ := fillPlain_same a1 a4 a2 (.inl rfl) e1 hb
    have : sh1' = sh0 := by
      rcases g3 with g3 | ⟨g3, g5⟩
      · exact g3
      · by_cases hs : t = .sharedString
        · obtain ⟨s, hs⟩ := a3 hs
          exact absurd g3 (g4 s hs)
        · obtain ⟨h1, h2⟩ := g6 hs
          rw [h1, h2]
    subst this
    exact ⟨⟨cid, n, some (.plain t vs')⟩, by simp only [fillProp, g1, Res.ok_bind, Res.pure_eq], by
      simp only [PropChunk.canon, Option.map_some, Arr.canon, g2]⟩
  | opt t =>
    simp only [fillProp, Res.bind_eq_ok, Res.pure_eq, Res.ok.injEq, Prod.mk.injEq] at h
    obtain ⟨xs, e1, rfl, rfl⟩ := h
    obtain ⟨xs', g1, g2, g3⟩ := fillOpts_same hp e1
    exact ⟨_, by simp only [fillProp, g1, Res.ok_bind, Res.pure_eq]; rfl, by
      simp only [PropChunk.canon, Option.map_some, Arr.canon, g2, g3]⟩


theorem fillProp_prefix {hash : Bytes → Bytes} {ref : Option ρ → BitVec 32} {cid : BitVec 32} {is : List (Inst ρ)}
    {p : Bytes × Kind} {sh sh1 : Shared} {c : PropChunk} (h : fillProp hash ref cid is p sh = .ok (c, sh1)) :
    sh <+: sh1 := by
  obtain ⟨n, k⟩ := p
  cases k with
  | plain t =>
    simp only [fillProp, Res.bind_eq_ok, Res.pure_eq, Res.ok.injEq] at h
    obtain ⟨⟨vs, sh0⟩, e1, e2⟩ := h
    simp only [Prod.mk.injEq] at e2
    obtain ⟨rfl, rfl⟩ := e2
    exact fillPlain_prefix e1
  | opt t =>
    simp only [fillProp, Res.bind_eq_ok, Res.pure_eq, Res.ok.injEq, Prod.mk.injEq] at h
    obtain ⟨xs, e1, rfl, rfl⟩ := h
    exact List.prefix_rfl

theorem fillProps_prefix {hash : Bytes → Bytes} {ref : Option ρ → BitVec 32} {cid : BitVec 32} {is : List (Inst ρ)} :
    ∀ {plan : List (Bytes × Kind)} {sh sh1 : Shared} {cs : List PropChunk},
    fillProps hash ref cid is plan sh = .ok (cs, sh1) → sh <+: sh1 := by
  intro plan
  induction plan with
  | nil => intro sh sh1 cs h; cases h; exact List.prefix_rfl
  | cons p plan ih =>
    intro sh sh1 cs h
    simp only [fillProps, Res.bind_eq_ok, Res.pure_eq, Res.ok.injEq] at h
    obtain ⟨⟨c, sh2⟩, h1, ⟨cs1, sh3⟩, h2, h3⟩ := h
    simp only [Prod.mk.injEq] at h3
    obtain ⟨rfl, rfl⟩ := h3
    exact (fillProp_prefix h1).trans (ih h2)

theorem fillProps_same {hash : Bytes → Bytes} {ref : Option ρ → BitVec 32} {ref' : Option σ → BitVec 32} {s0 : Bytes}
    {cid : BitVec 32} {is : List (Inst ρ)} {js : List (Inst σ)} : ∀ {plan : List (Bytes × Kind)},
    (∀ p ∈ plan, SameProp ref ref' s0 is js p) → ∀ {sh sh1 : Shared} {cs : List PropChunk},
    fillProps hash ref cid is plan sh = .ok (cs, sh1) → Begins hash s0 sh1 →
    ∃ cs', fillProps hash ref' cid js plan sh = .ok (cs', sh1) ∧ cs'.map PropChunk.canon = cs.map PropChunk.canon := by
  intro plan
  induction plan with
  | nil => intro _ sh sh1 cs h _; cases h; exact ⟨[], rfl, rfl⟩
  | cons p plan ih =>
    intro hp sh sh1 cs h hb
    simp only [fillProps, Res.bind_eq_ok, Res.pure_eq, Res.ok.injEq] at h
    obtain ⟨⟨c, sh2⟩, h1, ⟨cs1, sh3⟩, h2, h3⟩ := h
    simp only [Prod.mk.injEq] at h3
    obtain ⟨rfl, rfl⟩ := h3
    obtain ⟨c', g1, g2⟩ := fillProp_same (hp p (by simp)) h1 (hb.prefix (fillProps_prefix h2))
    obtain ⟨cs', k1, k2⟩ := ih (fun q hq => hp q (by simp [hq])) h2 hb
    exact ⟨c' :: cs', by simp only [fillProps, g1, k1, Res.ok_bind, Res.pure_eq], by simp only [List.map_cons, g2, k2]⟩

/-- The properties of the instances of a class are stored alike. -/
def SameClass (place : Bool) (ref : Option ρ → BitVec 32) (ref' : Option σ → BitVec 32) (s0 : Bytes) (is : List (Inst ρ))
    (js : List (Inst σ)) : Prop :=
  (∀ n k, valuesOf is n ≠ [] → planProp place is n = .ok (some k) →
    valuesOf js n ≠ [] ∧ planProp place js n = .ok (some k) ∧ SameProp ref ref' s0 is js (n, k)) ∧
  ∀ n, valuesOf js n ≠ [] →
    (valuesOf is n ≠ [] ∧ ∃ k, planProp place is n = .ok (some k)) ∨ planProp place js n = .ok none ∨
      (valuesOf is n ≠ [] ∧ ¬ (planProp place is n).isOk)

theorem classProps_same {place : Bool} {ref : Option ρ → BitVec 32} {ref' : Option σ → BitVec 32} {s0 : Bytes}
    {is : List (Inst ρ)} {js : List (Inst σ)} (hs : SameClass place ref ref' s0 is js) (it it' : Iter) (srt srt' : Sorter)
    (i i' : Nat) {plan : List (Bytes × Kind)} (h : classProps it srt place i is = .ok plan) :
    classProps it' srt' place i' js = .ok plan ∧ ∀ p ∈ plan, SameProp ref ref' s0 is js p := by
  obtain ⟨h1, h2⟩ := hs
  rcases classProps_cases it srt place i is with ⟨_, e⟩ | ⟨hall, plan0, e, s, d, m⟩
  · rw [e] at h; cases h
  · rw [e] at h
    cases h
    refine ⟨?_, fun p hp => ?_⟩
    · rcases classProps_cases it' srt' place i' js with ⟨⟨n, a, b⟩, _⟩ | ⟨_, plan', e', s', d', m'⟩
      · exfalso
        rcases h2 n a with ⟨x, k, y⟩ | x | ⟨x, y⟩
        · rw [(h1 n k x y).2.1] at b; exact b trivial
        · rw [x] at b; exact b trivial
        · exact y (hall n x)
      · rw [e', plan_eq s' d' s d]
        intro n k
        rw [m, m']
        constructor
        · rintro ⟨x, y⟩
          rcases h2 n x with ⟨a, k', b⟩ | a | ⟨a, b⟩
          · have := (h1 n k' a b).2.1
            rw [y] at this
            cases this
            exact ⟨a, b⟩
          · rw [a] at y; cases y
          · exact absurd (hall n a) b
        · rintro ⟨x, y⟩
          obtain ⟨a, b, _⟩ := h1 n k x y
          exact ⟨a, b⟩
    · obtain ⟨x, y⟩ := (m p.1 p.2).1 hp
      exact (h1 p.1 p.2 x y).2.2

variable [DecidableEq ρ] [DecidableEq σ]

theorem propChunks_prefix {it : Iter} {srt : Sorter} {hash : Bytes → Bytes} {place : Bool} {L : Map ρ (Inst ρ)} :
    ∀ {cs : List InstChunk} {i : Nat} {sh sh1 : Shared} {xs : List PropChunk},
    propChunks it srt hash place L i cs sh = .ok (xs, sh1) → sh <+: sh1 := by
  intro cs
  induction cs with
  | nil => intro i sh sh1 xs h; cases h; exact List.prefix_rfl
  | cons c cs ih =>
    intro i sh sh1 xs h
    simp only [propChunks, Res.bind_eq_ok, Res.pure_eq, Res.ok.injEq] at h
    obtain ⟨insts, h0, plan, h1, ⟨ys, sh2⟩, h2, ⟨zs, sh3⟩, h3, h4⟩ := h
    simp only [Prod.mk.injEq] at h4
    obtain ⟨rfl, rfl⟩ := h4
    exact (fillProps_prefix h2).trans (ih h3)

/-- The chunks of the classes `names`, numbered from `k`. -/
def classesOf (place : Bool) (insts : List (Inst ρ)) (k : Nat) (names : List Bytes) : List InstChunk :=
  (names.zipIdx k).map fun c => { chunkOf place c.1 (members insts.zipIdx c.1) with classID := BitVec.ofNat 32 c.2 }

theorem propChunks_same {it it' : Iter} {srt srt' : Sorter} {hash : Bytes → Bytes} {place : Bool} {L : Map ρ (Inst ρ)}
    {L' : Map σ (Inst σ)} {s0 : Bytes} (hn : L.length < 2 ^ 31) (hn' : L'.length < 2 ^ 31)
    (hs : ∀ cls, SameClass place (refNum L) (refNum L') s0 (classInsts (L.map Prod.snd) cls)
      (classInsts (L'.map Prod.snd) cls)) :
    ∀ (names : List Bytes) (k i i' : Nat) (sh sh1 : Shared) (xs : List PropChunk),
    propChunks it srt hash place L i (classesOf place (L.map Prod.snd) k names) sh = .ok (xs, sh1) → Begins hash s0 sh1 →
    ∃ xs', propChunks it' srt' hash place L' i' (classesOf place (L'.map Prod.snd) k names) sh = .ok (xs', sh1) ∧
      xs'.map PropChunk.canon = xs.map PropChunk.canon := by
  intro names
  induction names with
  | nil => intro k i i' sh sh1 xs h _; cases h; exact ⟨[], rfl, rfl⟩
  | cons cls names ih =>
    intro k i i' sh sh1 xs h hb
    simp only [classesOf, List.zipIdx_cons, List.map_cons] at h ⊢
    have fold1 : ((names.zipIdx (k + 1)).map fun c =>
      { chunkOf place c.1 (members (L.map Prod.snd).zipIdx c.1) with classID := BitVec.ofNat 32 c.2 }) =
      classesOf place (L.map Prod.snd) (k + 1) names := rfl
    have fold2 : ((names.zipIdx (k + 1)).map fun c =>
      { chunkOf place c.1 (members (L'.map Prod.snd).zipIdx c.1) with classID := BitVec.ofNat 32 c.2 }) =
      classesOf place (L'.map Prod.snd) (k + 1) names := rfl
    rw [fold1] at h
    rw [fold2]
    simp only [propChunks, Res.bind_eq_ok, Res.pure_eq, Res.ok.injEq] at h
    obtain ⟨insts, h0, plan, h1, ⟨ys, sh2⟩, h2, ⟨zs, sh3⟩, h3, h4⟩ := h
    simp only [Prod.mk.injEq] at h4
    obtain ⟨rfl, rfl⟩ := h4
    have hinsts : insts = classInsts (L.map Prod.snd) cls := by
      have := instsOf_members (insts := L.map Prod.snd) (by simpa using hn)
        (members (L.map Prod.snd).zipIdx cls) (fun y hy => (mem_members.1 hy).1)
      have h0' : instsOf (L.map Prod.snd) ((members (L.map Prod.snd).zipIdx cls).map
        fun y => BitVec.ofNat 32 y.2) = .ok insts := h0
      rw [this] at h0'
      cases h0'
      rfl
    subst hinsts
    have hinsts' : instsOf (L'.map Prod.snd) ((members (L'.map Prod.snd).zipIdx cls).map
        fun y => BitVec.ofNat 32 y.2) = .ok (classInsts (L'.map Prod.snd) cls) :=
      instsOf_members (insts := L'.map Prod.snd) (by simpa using hn')
        (members (L'.map Prod.snd).zipIdx cls) (fun y hy => (mem_members.1 hy).1)
    obtain ⟨a1, a2⟩ := classProps_same (hs cls) it it' srt srt' i i' h1
    obtain ⟨ys', b1, b2⟩ := fillProps_same a2 h2 (hb.prefix (propChunks_prefix h3))
    obtain ⟨zs', c1, c2⟩ := ih (k + 1) (i + 1) (i' + 1) sh2 sh3 zs h3 hb
    refine ⟨ys' ++ zs', ?_, by simp only [List.map_append, b2, c2]⟩
    simp only [propChunks, chunkOf, hinsts', a1, b1, c1, Res.ok_bind, Res.pure_eq]

/-! ### Trees -/

/-- The listing of the other tree. -/
def mapList (φ : ρ → σ) (h' : Heap σ) (l : Map ρ (Inst ρ)) : Map σ (Inst σ) :=
  l.map fun x => (φ x.1, (h'.get? (φ x.1)).getD ⟨[], [], false, [], []⟩)

theorem forest_map {h : Heap ρ} {h' : Heap σ} {φ : ρ → σ} {ps : List ρ} {l : Map ρ (Inst ρ)} (f : Forest h ps l) :
    (∀ x ∈ l, ∃ i', h'.get? (φ x.1) = some i' ∧ i'.children = x.2.children.map φ) →
    Forest h' (ps.map φ) (mapList φ h' l) := by
  induction f with
  | nil => intro _; exact .nil
  | @cons p ps inst below rest hp f1 f2 ih1 ih2 =>
    intro hx
    obtain ⟨i', e1, e2⟩ := hx (p, inst) (by simp)
    simp only [mapList, List.map_cons, List.map_append, e1, Option.getD_some]
    refine .cons e1 ?_ (ih2 fun x h => hx x (by simp [h]))
    rw [e2]
    exact ih1 fun x h => hx x (by simp [h])

theorem recAll_map {h : Heap ρ} {h' : Heap σ} {φ : ρ → σ} {ps : List ρ} {l : Map ρ (Inst ρ)} (f : Forest h ps l) :
    (∀ x ∈ l, ∃ i', h'.get? (φ x.1) = some i' ∧ i'.children = x.2.children.map φ) →
    ∀ (fuel fuel' : Nat) (par : Option ρ), l.length ≤ fuel → l.length ≤ fuel' →
    ∃ pairs : List (ρ × Option ρ),
      (∀ acc : List (ρ × Option ρ), ps.foldlM (fun acc c => do
        let l ← recInst h fuel par c
        pure (acc ++ l)) acc = .ok (acc ++ pairs)) ∧
      (∀ acc : List (σ × Option σ), (ps.map φ).foldlM (fun acc c => do
        let l ← recInst h' fuel' (par.map φ) c
        pure (acc ++ l)) acc = .ok (acc ++ pairs.map fun x => (φ x.1, x.2.map φ))) ∧
      (∀ x ∈ pairs, x.1 ∈ l.map Prod.fst ∧ (x.2 = par ∨ ∃ q ∈ l.map Prod.fst, x.2 = some q)) := by
  induction f with
  | nil => intro _ fuel fuel' par _ _; exact ⟨[], by simp, by simp, by simp⟩
  | @cons p ps inst below rest hp f1 f2 ih1 ih2 =>
    intro hx fuel fuel' par hf hf'
    obtain ⟨i', e1, e2⟩ := hx (p, inst) (by simp)
    simp only [List.length_cons, List.length_append] at hf hf'
    obtain _ | fuel := fuel
    · omega
    obtain _ | fuel' := fuel'
    · omega
    obtain ⟨pa, a1, a2, a3⟩ := ih1 (fun x h => hx x (by simp [h])) fuel fuel' (some p) (by omega) (by omega)
    obtain ⟨pb, b1, b2, b3⟩ := ih2 (fun x h => hx x (by simp [h])) (fuel + 1) (fuel' + 1) par (by omega) (by omega)
    have r1 : recInst h (fuel + 1) par p = .ok (pa ++ [(p, par)]) := by
      rw [recInst]
      simp only [hp]
      rw [a1]
      simp
    have r2 : recInst h' (fuel' + 1) (par.map φ) (φ p) =
        .ok ((pa ++ [(p, par)]).map fun x => (φ x.1, x.2.map φ)) := by
      rw [recInst]
      simp only [e1, e2]
      have := a2 []
      simp only [Option.map_some] at this
      rw [this]
      simp
    refine ⟨pa ++ [(p, par)] ++ pb, ?_, ?_, ?_⟩
    · intro acc
      simp only [List.foldlM_cons, r1, Res.ok_bind, Res.pure_eq] at b1 ⊢
      rw [b1]
      simp
    · intro acc
      simp only [List.map_cons, List.foldlM_cons, r2, Res.ok_bind, Res.pure_eq] at b2 ⊢
      rw [b2]
      simp
    · intro x hx'
      simp only [List.mem_append, List.mem_singleton] at hx'
      simp only [List.map_cons, List.map_append, List.mem_cons, List.mem_append]
      rcases hx' with (hx' | rfl) | hx'
      · obtain ⟨y1, y2⟩ := a3 x hx'
        refine ⟨.inr (.inl y1), ?_⟩
        rcases y2 with y2 | ⟨q, y2, y3⟩
        · exact .inr ⟨p, .inl rfl, y2⟩
        · exact .inr ⟨q, .inr (.inl y2), y3⟩
      · exact ⟨.inl rfl, .inl rfl⟩
      · obtain ⟨y1, y2⟩ := b3 x hx'
        refine ⟨.inr (.inr y1), ?_⟩
        rcases y2 with y2 | ⟨q, y2, y3⟩
        · exact .inl y2
        · exact .inr ⟨q, .inr (.inr y2), y3⟩

theorem idxOf?_map {φ : ρ → σ} : ∀ (l : List ρ) (p : ρ), p ∈ l → (∀ q ∈ l, φ q = φ p → q = p) →
    (l.map φ).idxOf? (φ p) = l.idxOf? p := by
  intro l
  induction l with
  | nil => intro p h; cases h
  | cons q l ih =>
    intro p h hi
    simp only [List.map_cons, List.idxOf?_cons]
    by_cases e : q = p
    · simp [e]
    · have e' : ¬ φ q = φ p := fun x => e (hi q (by simp) x)
      have : p ∈ l := (List.mem_cons.1 h).resolve_left (fun x => e x.symm)
      simp only [beq_eq_false_iff_ne.2 e, beq_eq_false_iff_ne.2 e', Bool.false_eq_true, if_false]
      rw [ih p this (fun q hq => hi q (List.mem_cons_of_mem _ hq))]

theorem refNum_map {φ : ρ → σ} {h' : Heap σ} {l : Map ρ (Inst ρ)}
    (hi : ∀ p ∈ l.map Prod.fst, ∀ q ∈ l.map Prod.fst, φ p = φ q → p = q) {p : ρ} (hp : p ∈ l.map Prod.fst) :
    refNum (mapList φ h' l) (some (φ p)) = refNum l (some p) := by
  have : (mapList φ h' l).map Prod.fst = (l.map Prod.fst).map φ := by
    simp only [mapList, List.map_map]; rfl
  simp only [refNum, this]
  rw [idxOf?_map _ p hp (fun q hq e => hi q hq p hp e)]

/-- Two trees that are written alike: `φ` maps the instances of one, listed by `l`, to those of the other, respecting roots,
children, class names and (in a place) services; the properties are stored alike. -/
structure Alike (place : Bool) (s0 : Bytes) (φ : ρ → σ) (h : Heap ρ) (root : Root ρ) (l : Map ρ (Inst ρ)) (h' : Heap σ)
    (root' : Root σ) : Prop where
  trees : Trees h root.instances l
  inj : ∀ p ∈ l.map Prod.fst, ∀ q ∈ l.map Prod.fst, φ p = φ q → p = q
  roots : root'.instances = root.instances.map φ
  inst : ∀ x ∈ l, ∃ i', h'.get? (φ x.1) = some i' ∧ i'.children = x.2.children.map φ ∧ i'.className = x.2.className ∧
    (place && i'.isService) = (place && x.2.isService)
  props : ∀ cls, SameClass place (refNum l) (refNum (mapList φ h' l)) s0 (classInsts (l.map Prod.snd) cls)
    (classInsts ((mapList φ h' l).map Prod.snd) cls)

section
variable {place : Bool} {s0 : Bytes} {φ : ρ → σ} {h : Heap ρ} {root : Root ρ} {l : Map ρ (Inst ρ)} {h' : Heap σ}
  {root' : Root σ}

theorem Alike.trees' (a : Alike place s0 φ h root l h' root') : Trees h' root'.instances (mapList φ h' l) := by
  refine ⟨?_, ?_⟩
  · rw [a.roots]
    exact forest_map a.trees.1 fun x hx => by
      obtain ⟨i', e1, e2, _⟩ := a.inst x hx
      exact ⟨i', e1, e2⟩
  · have hk : (mapList φ h' l).map Prod.fst = (l.map Prod.fst).map φ := by
      simp only [mapList, List.map_map]; rfl
    show ((mapList φ h' l).map Prod.fst).Nodup
    rw [hk]
    have hnd : (l.map Prod.fst).Nodup := a.trees.2
    unfold List.Nodup at hnd ⊢
    rw [List.pairwise_map]
    exact hnd.imp_of_mem fun hp hq hne e => hne (a.inj _ hp _ hq e)

theorem Alike.parent (a : Alike place s0 φ h root l h' root') :
    parentLinks h' (mapList φ h' l) root'.instances = parentLinks h l root.instances := by
  have hlen : (mapList φ h' l).length = l.length := by simp [mapList]
  have hl := Trees.length_le a.trees
  have hl' := Trees.length_le a.trees'
  obtain ⟨pairs, h1, h2, h3⟩ := recAll_map a.trees.1 (φ := φ) (h' := h') (fun x hx => by
      obtain ⟨i', e1, e2, _⟩ := a.inst x hx
      exact ⟨i', e1, e2⟩) (h.length + 1) (h'.length + 1) none (by omega) (by omega)
  have h1 := h1 []
  have h2 := h2 []
  simp only [Option.map_none] at h2
  unfold parentLinks
  rw [hlen, a.roots, h1, h2]
  split
  · rfl
  · simp only [Res.ok_bind, List.nil_append, List.length_map, List.map_map]
    have e1 : (pairs.map ((fun x => refNum (mapList φ h' l) (some x.1)) ∘ fun x => (φ x.1, x.2.map φ))) =
        pairs.map fun x => refNum l (some x.1) := by
      apply List.map_congr_left
      intro x hx
      exact refNum_map a.inj (h3 x hx).1
    have e2 : (pairs.map ((fun x => refNum (mapList φ h' l) x.2) ∘ fun x => (φ x.1, x.2.map φ))) =
        pairs.map fun x => refNum l x.2 := by
      apply List.map_congr_left
      intro x hx
      rcases (h3 x hx).2 with e | ⟨q, hq, e⟩
      · simp [e, refNum]
      · simp only [Function.comp_apply, e, Option.map_some]
        exact refNum_map a.inj hq
    rw [e1, e2]

theorem Alike.classes (a : Alike place s0 φ h root l h' root') (it it' : Iter) (srt srt' : Sorter) :
    ∃ names, classList it srt place (l.map Prod.snd) = classesOf place (l.map Prod.snd) 0 names ∧
      classList it' srt' place ((mapList φ h' l).map Prod.snd) =
        classesOf place ((mapList φ h' l).map Prod.snd) 0 names ∧
      classesOf place ((mapList φ h' l).map Prod.snd) 0 names = classesOf place (l.map Prod.snd) 0 names := by
  obtain ⟨names, n1, s1, m1, e1⟩ := classList_eq it srt place (l.map Prod.snd)
  obtain ⟨names', n2, s2, m2, e2⟩ := classList_eq it' srt' place ((mapList φ h' l).map Prod.snd)
  have cls : ∀ x ∈ l, ((h'.get? (φ x.1)).getD ⟨[], [], false, [], []⟩).className = x.2.className ∧
      (place && ((h'.get? (φ x.1)).getD ⟨[], [], false, [], []⟩).isService) = (place && x.2.isService) := by
    intro x hx
    obtain ⟨i', e1, _, e2, e3⟩ := a.inst x hx
    simp [e1, e2, e3]
  have flip : ∀ {a b : Bytes}, bytesLt a b = true → bytesLt b a = false := by
    intro a b h
    cases h' : bytesLt b a with
    | false => rfl
    | true => have := bytesLt_trans h h'; rw [bytesLt_irrefl] at this; cases this
  have hm : ∀ c, c ∈ names' ↔ c ∈ names := by
    intro c
    rw [m1, m2]
    simp only [mapList, List.map_map, List.mem_map]
    constructor
    · rintro ⟨_, ⟨x, hx, rfl⟩, rfl⟩
      exact ⟨_, ⟨x, hx, rfl⟩, ((cls x hx).1).symm⟩
    · rintro ⟨_, ⟨x, hx, rfl⟩, rfl⟩
      exact ⟨_, ⟨x, hx, rfl⟩, (cls x hx).1⟩
  have : names' = names := sorted_unique id (s2.imp flip) (s1.imp flip)
    ((List.perm_ext_iff_of_nodup n2 n1).2 hm) (by simpa using n2)
  subst this
  refine ⟨names', e1, e2, ?_⟩
  unfold classesOf
  apply List.map_congr_left
  intro c _
  have key : ∀ (l : List (ρ × Inst ρ)) (k : Nat), (∀ x ∈ l,
      ((h'.get? (φ x.1)).getD ⟨[], [], false, [], []⟩).className = x.2.className ∧
      (place && ((h'.get? (φ x.1)).getD ⟨[], [], false, [], []⟩).isService) = (place && x.2.isService)) →
      (members (((mapList φ h' l).map Prod.snd).zipIdx k) c.1).map (fun x => (x.2, place && x.1.isService)) =
      (members ((l.map Prod.snd).zipIdx k) c.1).map (fun x => (x.2, place && x.1.isService)) := by
    intro l
    induction l with
    | nil => intro k _; rfl
    | cons x l ih =>
      intro k hx
      have ih := ih (k + 1) (fun y hy => hx y (by simp [hy]))
      obtain ⟨x1, x2⟩ := hx x (by simp)
      simp only [mapList, List.map_cons, List.zipIdx_cons, members, List.filter_cons] at ih ⊢
      simp only [x1]
      split
      · simp only [List.map_cons, ih, x2]
      · exact ih
  have key := key l 0 cls
  have k1 := congrArg (List.map fun x : Nat × Bool => BitVec.ofNat 32 x.1) key
  have k2 := congrArg (fun y : List (Nat × Bool) => y.any Prod.snd) key
  have k3 := congrArg (List.map fun x : Nat × Bool => if x.2 = true then 1#8 else 0#8) key
  simp only [List.map_map, List.any_map, Function.comp_def] at k1 k2 k3
  simp only [chunkOf, k1, k2, k3]

/-- What the chunks of the two files have in common. -/
theorem Alike.encode (a : Alike place s0 φ h root l h' root') (it it' : Iter) (srt srt' : Sorter) (hash : Bytes → Bytes)
    (hn : l.length < 2 ^ 31) (f : FormatModel) (hf : codecEncode it srt hash place h root = .ok f)
    (hs0 : ∀ props shared, propChunks it srt hash place l 0 (classList it srt place (l.map Prod.snd)) [] =
      .ok (props, shared) → Begins hash s0 shared) :
    ∃ f' rest rest', codecEncode it' srt' hash place h' root' = .ok f' ∧
      f'.version = f.version ∧ f'.classCount = f.classCount ∧ f'.instanceCount = f.instanceCount ∧
      f'.trailing = f.trailing ∧
      f.chunks = (if root.metadata.length = 0 then []
        else [⟨.metadata (srt.run metaLess (it.run [4] root.metadata)), true⟩]) ++ rest ∧
      f'.chunks = (if root'.metadata.length = 0 then []
        else [⟨.metadata (srt'.run metaLess (it'.run [4] root'.metadata)), true⟩]) ++ rest' ∧
      rest'.map (fun c => (c.body.canon, c.compressed)) = rest.map fun c => (c.body.canon, c.compressed) := by
  obtain ⟨names, c1, c2, c3⟩ := a.classes it it' srt srt'
  simp only [codecEncode, instList_trees a.trees, Res.ok_bind, Res.bind_eq_ok, Res.pure_eq, Res.ok.injEq] at hf
  obtain ⟨⟨props, shared⟩, hprops, parent, hparent, hf⟩ := hf
  have hb := hs0 props shared hprops
  rw [c1] at hprops
  have hlen : (mapList φ h' l).length = l.length := by simp [mapList]
  obtain ⟨props', p1, p2⟩ := propChunks_same (it := it) (it' := it') (srt := srt) (srt' := srt') hn
    (by rw [hlen]; exact hn) a.props names 0 0 0 [] shared props hprops hb
  have hpar := a.parent
  rw [hparent] at hpar
  subst hf
  have hf' : codecEncode it' srt' hash place h' root' = .ok (FormatModel.mk 0
      (BitVec.ofNat 32 (classesOf place ((mapList φ h' l).map Prod.snd) 0 names).length)
      (BitVec.ofNat 32 (mapList φ h' l).length)
      ((if root'.metadata.length = 0 then []
        else [⟨.metadata (srt'.run metaLess (it'.run [4] root'.metadata)), true⟩]) ++ (if shared.length = 0 then []
        else [⟨.shared ⟨0, shared.map fun e => (List.replicate 16 0#8, e.2)⟩, true⟩]) ++
        (classesOf place ((mapList φ h' l).map Prod.snd) 0 names).map (fun c => ⟨.inst c, true⟩) ++
        props'.map (fun c => ⟨.prop c, true⟩) ++ [⟨.parent parent, true⟩, ⟨.end_ endTag, false⟩]) [] []) := by
    simp only [codecEncode, instList_trees a.trees', Res.ok_bind, c2, p1, hpar, Res.pure_eq]
  refine ⟨_, (if shared.length = 0 then []
    else [⟨.shared ⟨0, shared.map fun e => (List.replicate 16 0#8, e.2)⟩, true⟩]) ++
    (classList it srt place (l.map Prod.snd)).map (fun c => ⟨.inst c, true⟩) ++
      props.map (fun c => ⟨.prop c, true⟩) ++ [⟨.parent parent, true⟩, ⟨.end_ endTag, false⟩],
    (if shared.length = 0 then []
    else [⟨.shared ⟨0, shared.map fun e => (List.replicate 16 0#8, e.2)⟩, true⟩]) ++
    (classList it srt place (l.map Prod.snd)).map (fun c => ⟨.inst c, true⟩) ++
      props'.map (fun c => ⟨.prop c, true⟩) ++ [⟨.parent parent, true⟩, ⟨.end_ endTag, false⟩],
    hf', rfl, ?_, ?_, rfl, ?_, ?_, ?_⟩
  · simp only [c3, c1]
  · simp only [hlen]
  · simp only [List.append_assoc]
  · simp only [List.append_assoc, c3, c1]
  · have : (props'.map fun c => (⟨.prop c, true⟩ : Chunk)).map (fun c => (c.body.canon, c.compressed)) =
        (props.map fun c => (⟨.prop c, true⟩ : Chunk)).map (fun c => (c.body.canon, c.compressed)) := by
      have := congrArg (List.map fun c : PropChunk => (Body.prop c, true)) p2
      simp only [List.map_map] at this ⊢
      exact this
    simp only [List.map_append, this]

end

end Rbxl

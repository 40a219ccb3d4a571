import Verif.Rbxl.EncOrder
/-!
# Encoding a tree does not panic
-/
namespace Rbxl
open Go Rbxfile Spec

variable {ρ : Type} [DecidableEq ρ]

theorem isOk_bind {α β : Type} {x : Res α} {f : α → Res β} (hx : x.isOk) (hf : ∀ a, (f a).isOk) :
    (x >>= f).isOk := by
  cases x with
  | ok a => exact hf a
  | err e => exact hx.elim
  | panic => exact hx.elim

/-! ### Arrays -/

theorem interleave_ok {bytes : Bytes} {size count : Nat} (hs : 0 < size) (hc : 0 < count)
    (h : bytes.length = count * size) : ∃ out, interleave bytes size = .ok out := by
  obtain ⟨out, h, _⟩ := interleave_spec bytes size count hs hc h
  exact ⟨out, h⟩

theorem flatMap_bytes_length' {t : TypeID} {k : Nat} (hk : t.size = some k) :
    ∀ vs : List Val, (∀ v ∈ vs, v.type = t) → (vs.flatMap Val.bytes).length = vs.length * k
  | [], _ => by simp
  | v :: vs, h => by
    have hv := h v (by simp)
    simp only [List.flatMap_cons, List.length_append, List.length_cons,
      flatMap_bytes_length' hk vs (fun w hw => h w (by simp [hw])),
      v.bytes_length_of_size k (by rw [hv]; exact hk)]
    rw [Nat.add_mul]; omega

theorem plainToBytes_ok (t : TypeID) (vs : List Val) (hne : vs ≠ []) (h : ∀ v ∈ vs, v.type = t) :
    ∃ b, plainToBytes t vs = .ok b := by
  have hpos : 0 < vs.length := List.length_pos_iff.2 hne
  by_cases hr : t = .reference
  · subst hr
    obtain ⟨out, ho⟩ := interleave_ok (bytes := refsBytes (vs.map Val.refNum)) (size := 4)
      (count := vs.length) (by decide) hpos (by rw [refsBytes_eq, refsBytes_length, List.length_map])
    exact ⟨out, by simp [plainToBytes, plainBytes, interleaved, TypeID.size, ho]⟩
  by_cases hcf : t = .cframe
  · subst hcf
    obtain ⟨q, h1, _⟩ := cframesBytes_ok vs hne
    exact ⟨_, by simp only [plainToBytes, plainBytes, h1, Res.ok_bind, interleaved,
      Bool.false_eq_true, if_false, Res.pure_eq]; rfl⟩
  by_cases hcq : t = .cframeQuat
  · subst hcq
    obtain ⟨q, h1, _⟩ := cframesBytes_ok vs hne
    exact ⟨_, by simp only [plainToBytes, plainBytes, h1, Res.ok_bind, interleaved,
      Bool.false_eq_true, if_false, Res.pure_eq]; rfl⟩
  have hb : plainBytes t vs = .ok (vs.flatMap Val.bytes) := by
    unfold plainBytes
    split
    · exact absurd rfl hcf
    · exact absurd rfl hcq
    · exact absurd rfl hr
    · rfl
  simp only [plainToBytes, hb, Res.ok_bind]
  by_cases hi : interleaved t = true
  · have : ∃ k, t.size = some k ∧ 0 < k := by
      cases t <;> first | exact ⟨_, rfl, by decide⟩ | cases hi
    obtain ⟨k, hk, hk0⟩ := this
    rw [if_pos hi, hk]
    exact interleave_ok hk0 hpos (flatMap_bytes_length' hk vs h)
  · rw [if_neg hi]; exact ⟨_, rfl⟩

/-! ### Plans -/

theorem fromValueType_some {t : Ty} (h : t ≠ .invalid) : ∃ e, fromValueType t = some e := by
  cases t <;> first | exact absurd rfl h | exact ⟨_, rfl⟩

theorem fromValueType_congr {t t' : Ty} (h : binType t = binType t') :
    fromValueType t = fromValueType t' := by
  cases t <;> cases t' <;> first | rfl | (exfalso; revert h; decide)

theorem fromValueType_optional {t : Ty} (h : fromValueType t = some .optional) : t = .optional := by
  cases t <;> simp [fromValueType] at h ⊢

omit [DecidableEq ρ] in
theorem planRest_isOk (t : TypeID) (k : Kind) : ∀ (vs : List (Value ρ)),
    (∀ typ o, .optional typ o ∈ vs → t = .optional → (fromValueType typ).map Kind.opt = some k) →
    (planRest t k vs).isOk := by
  intro vs
  induction vs with
  | nil => intro _; trivial
  | cons v vs ih =>
    intro h
    have ih' := ih fun typ o ho => h typ o (by simp [ho])
    unfold planRest
    split
    · trivial
    · rename_i hv
      have hv' : fromValueType v.type = some t := Classical.byContradiction fun h => hv h
      split
      · rename_i typ o
        have ht : t = .optional := by simpa [Value.type, fromValueType] using hv'.symm
        rw [if_neg (by simp [h typ o (by simp) ht])]
        exact ih'
      · exact ih'

omit [DecidableEq ρ] in
theorem planProp_isOk (place : Bool) (insts : List (Inst ρ)) (n : Bytes)
    (hne : valuesOf insts n ≠ []) (ho : OptionalsOk (valuesOf insts n)) :
    (planProp place insts n).isOk := by
  unfold planProp
  unfold valuesOf at hne ho
  generalize (insts.filterMap fun i => i.properties.get? n) = vs at hne ho ⊢
  cases vs with
  | nil => exact absurd rfl hne
  | cons v vs =>
    have hvi : v.type ≠ .invalid := by cases v <;> simp [Value.type]
    obtain ⟨t, ht⟩ := fromValueType_some hvi
    simp only [ht]
    split
    · trivial
    · split
      · rename_i typ o
        obtain ⟨h1, h2, h3, h4⟩ := ho typ o (by simp)
        obtain ⟨e, he⟩ := fromValueType_some h1
        simp only [he]
        apply planRest_isOk
        intro typ' o' hm _
        rw [fromValueType_congr (h4 typ' o' (by simp [hm])), he]; rfl
      · rename_i hno
        apply planRest_isOk
        intro typ o hm ht'
        subst ht'
        have := fromValueType_optional ht
        cases v <;> simp [Value.type] at this
        exact absurd rfl (hno _ _)

/-! ### Filling -/

omit [DecidableEq ρ] in
theorem fillPlain_isOk (hash : Bytes → Bytes) (ref : Option ρ → BitVec 32) {t : TypeID}
    (ht : t ≠ .optional) (n : Bytes) : ∀ (insts : List (Inst ρ)) (sh : Shared),
    (fillPlain hash ref t n insts sh).isOk := by
  intro insts
  obtain ⟨d, hd⟩ := newValue_some ht
  induction insts with
  | nil => intro sh; trivial
  | cons i is ih =>
    intro sh
    have : ∃ x, fillValue hash ref t (i.properties.get? n) sh = .ok x := by
      unfold fillValue
      simp only [hd]
      split
      · split <;> exact ⟨_, rfl⟩
      · exact ⟨_, rfl⟩
    obtain ⟨⟨v, sh1⟩, hx⟩ := this
    simp only [fillPlain, hx, Res.ok_bind]
    have := ih sh1
    rcases h : fillPlain hash ref t n is sh1 with y | e | _
    · trivial
    · rw [h] at this; exact this
    · rw [h] at this; exact this

omit [DecidableEq ρ] in
theorem fillOpts_isOk {t : TypeID} (ht : t ≠ .optional) (n : Bytes) : ∀ (insts : List (Inst ρ)),
    (∀ typ v, .optional typ (some v) ∈ valuesOf insts n → fromValueType v.type = some t) →
    (fillOpts t n insts).isOk := by
  intro insts
  obtain ⟨d, hd⟩ := newValue_some ht
  induction insts with
  | nil => intro _; trivial
  | cons i is ih =>
    intro h
    have ih' := ih (by
      intro typ v hv
      refine h typ v ?_
      obtain ⟨j, hj, hj2⟩ := List.mem_filterMap.1 hv
      exact List.mem_filterMap.2 ⟨j, by simp [hj], hj2⟩)
    have : ∃ x, fillOpt t (i.properties.get? n) = .ok x := by
      unfold fillOpt
      simp only [hd]
      split
      · rename_i b hb
        split at hb
        · rename_i typ v hv
          have := h typ v (List.mem_filterMap.2 ⟨i, by simp, hv⟩)
          rw [encodeValue_type hb] at this
          rw [if_pos (Option.some.inj this)]
          exact ⟨_, rfl⟩
        · cases hb
      · exact ⟨_, rfl⟩
    obtain ⟨x, hx⟩ := this
    simp only [fillOpts, hx, Res.ok_bind]
    rcases h : fillOpts t n is with y | e | _
    · trivial
    · rw [h] at ih'; exact ih'
    · rw [h] at ih'; exact ih'

omit [DecidableEq ρ] in
theorem fillProps_isOk (hash : Bytes → Bytes) (ref : Option ρ → BitVec 32) (cid : BitVec 32)
    (insts : List (Inst ρ)) {place : Bool} : ∀ (plan : List (Bytes × Kind)) (sh : Shared),
    (∀ x ∈ plan, Written place (valuesOf insts x.1) ∧ PlanSpec place (valuesOf insts x.1) x.2) →
    (∀ n, OptionalsOk (valuesOf insts n)) →
    (fillProps hash ref cid insts plan sh).isOk := by
  intro plan
  induction plan with
  | nil => intro sh _ _; trivial
  | cons p plan ih =>
    intro sh h ho
    have : ∃ x, fillProp hash ref cid insts p sh = .ok x := by
      obtain ⟨hw, hp⟩ := h p (by simp)
      unfold fillProp
      split
      · rename_i t ht
        rw [ht] at hp
        have := fillPlain_isOk hash ref hp.1 p.1 insts sh
        rcases h1 : fillPlain hash ref t p.1 insts sh with x | e | _
        · exact ⟨_, rfl⟩
        · rw [h1] at this; exact this.elim
        · rw [h1] at this; exact this.elim
      · rename_i t ht
        rw [ht] at hp
        simp only [PlanSpec] at hp
        obtain ⟨v, hv⟩ := List.exists_mem_of_ne_nil _ hw.1
        obtain ⟨typ, o, rfl, htyp⟩ := hp v hv
        obtain ⟨h1, h2, h3, h4⟩ := ho p.1 typ o hv
        have hto : t ≠ .optional := by
          rintro rfl; exact h2 (fromValueType_optional htyp)
        have := fillOpts_isOk hto p.1 insts (by
          intro typ' v' hv'
          obtain ⟨g1, g2, g3, g4⟩ := ho p.1 typ' (some v') hv'
          rw [fromValueType_congr (g3 v' rfl), fromValueType_congr (h4 _ _ hv'), htyp])
        rcases h1 : fillOpts t p.1 insts with x | e | _
        · exact ⟨_, rfl⟩
        · rw [h1] at this; exact this.elim
        · rw [h1] at this; exact this.elim
    obtain ⟨⟨c, sh1⟩, hx⟩ := this
    simp only [fillProps, hx, Res.ok_bind]
    have := ih sh1 (fun x hx => h x (by simp [hx])) ho
    rcases h1 : fillProps hash ref cid insts plan sh1 with x | e | _
    · trivial
    · rw [h1] at this; exact this
    · rw [h1] at this; exact this

theorem propChunks_isOk (it : Iter) (srt : Sorter) (hash : Bytes → Bytes) (place : Bool)
    (L : Map ρ (Inst ρ)) (hn : L.length < 2 ^ 31)
    (ho : ∀ cls n, OptionalsOk (valuesOf (classInsts (L.map Prod.snd) cls) n)) :
    ∀ (names : List Bytes) (k : Nat) (sh : Shared),
    (propChunks it srt hash place L k ((names.zipIdx k).map fun c =>
        { chunkOf place c.1 (members (L.map Prod.snd).zipIdx c.1) with
          classID := BitVec.ofNat 32 c.2 }) sh).isOk := by
  intro names
  induction names with
  | nil => intro k sh; trivial
  | cons cls names ih =>
    intro k sh
    simp only [List.zipIdx_cons, List.map_cons, propChunks]
    have hi : instsOf (L.map Prod.snd)
        ((members (L.map Prod.snd).zipIdx cls).map fun y => BitVec.ofNat 32 y.2) =
        .ok (classInsts (L.map Prod.snd) cls) :=
      instsOf_members (by simpa using hn) _ (fun y hy => (mem_members.1 hy).1)
    simp only [chunkOf, hi, Res.ok_bind]
    rcases classProps_cases it srt place k (classInsts (L.map Prod.snd) cls) with
      ⟨⟨n, h1, h2⟩, _⟩ | ⟨_, plan, e, _⟩
    · exact absurd (planProp_isOk place _ n h1 (ho cls n)) h2
    · simp only [e, Res.ok_bind]
      have h1 := fillProps_isOk hash (refNum L) (BitVec.ofNat 32 k)
        (classInsts (L.map Prod.snd) cls) plan sh (classProps_ok e).2.1 (ho cls)
      rcases h2 : fillProps hash (refNum L) (BitVec.ofNat 32 k) (classInsts (L.map Prod.snd) cls)
          plan sh with ⟨xs, sh1⟩ | e | _
      · simp only [Res.ok_bind]
        exact isOk_bind (ih (k + 1) sh1) fun _ => trivial
      · rw [h2] at h1; exact h1.elim
      · rw [h2] at h1; exact h1.elim

/-! ### Payloads -/

omit [DecidableEq ρ] in
theorem PropsOk.payload {hash : Bytes → Bytes} {ref : Option ρ → BitVec 32} {place : Bool}
    {insts : List (Inst ρ)} {sh : Shared} : ∀ {names : List Bytes} {k : Nat} {cs : List PropChunk},
    (∀ cls ∈ names, classInsts insts cls ≠ []) →
    PropsOk hash ref place insts sh k names cs → ∀ c ∈ cs, ∃ b, (Body.prop c).payload = .ok b := by
  intro names
  induction names with
  | nil => intro k cs _ h c hc; simp only [PropsOk] at h; subst h; cases hc
  | cons cls names ih =>
    intro k cs hne h c hc
    obtain ⟨plan, xs, ys, rfl, hplan, hxs, hys⟩ := h
    rcases List.mem_append.1 hc with hc | hc
    · obtain ⟨p, hp, hok⟩ : ∃ p ∈ plan, ChunkOk hash ref sh (BitVec.ofNat 32 k)
          (classInsts insts cls) p c := by
        clear hplan
        induction hxs with
        | nil => cases hc
        | cons h1 _ ih' =>
          rcases List.mem_cons.1 hc with rfl | hc
          · exact ⟨_, by simp, h1⟩
          · obtain ⟨p, hp, h⟩ := ih' (List.mem_append_left _ hc) hc
            exact ⟨p, by simp [hp], h⟩
      obtain ⟨_, _, h3⟩ := hok
      split at h3
      · rename_i t _
        obtain ⟨vs, g1, g2⟩ := h3
        have hlen := g2.length_eq
        have hvs : vs ≠ [] := by
          rintro rfl
          exact hne cls (by simp) (List.length_eq_zero_iff.1 hlen)
        obtain ⟨b, hb⟩ := plainToBytes_ok t vs hvs (by
          intro v hv
          have : ∀ {is : List (Inst ρ)} {ws : List Val}, List.Forall₂ (fun i b =>
              Enc hash ref t sh (i.properties.get? p.1) b) is ws → ∀ v ∈ ws, v.type = t := by
            intro is ws hf
            induction hf with
            | nil => intro v hv; cases hv
            | cons h1 _ ih =>
              intro v hv
              rcases List.mem_cons.1 hv with rfl | hv
              · exact h1.1
              · exact ih v hv
          exact this g2 v hv)
        exact ⟨_, by simp only [Body.payload, g1, typeArrayToBytes, Arr.toBytes, hb, Res.ok_bind,
          Res.pure_eq]; rfl⟩
      · rename_i t _
        obtain ⟨vs, g1, g2⟩ := h3
        have hlen := g2.length_eq
        have hvs : vs ≠ [] := by
          rintro rfl
          exact hne cls (by simp) (List.length_eq_zero_iff.1 hlen)
        obtain ⟨b, hb⟩ := plainToBytes_ok t (vs.map Prod.fst) (by simpa using hvs) (by
          intro v hv
          have : ∀ {is : List (Inst ρ)} {ws : List (Val × Bool)}, List.Forall₂ (fun i b =>
              EncOpt t (i.properties.get? p.1) b) is ws → ∀ v ∈ ws, v.1.type = t := by
            intro is ws hf
            induction hf with
            | nil => intro v hv; cases hv
            | cons h1 _ ih =>
              intro v hv
              rcases List.mem_cons.1 hv with rfl | hv
              · exact h1.1
              · exact ih v hv
          obtain ⟨x, hx, rfl⟩ := List.mem_map.1 hv
          exact this g2 x hx)
        obtain ⟨b', hb'⟩ := plainToBytes_ok .bool ((vs.map Prod.snd).map Val.bool)
          (by simpa using hvs) (by
            intro v hv
            obtain ⟨x, _, rfl⟩ := List.mem_map.1 hv
            rfl)
        exact ⟨_, by simp only [Body.payload, g1, typeArrayToBytes, Arr.toBytes, hb, hb',
          Res.ok_bind, Res.pure_eq]; rfl⟩
    · exact ih (fun cls hc => hne cls (by simp [hc])) hys c hc

theorem refArrayToBytes_ok (refs : List (BitVec 32)) (hne : refs ≠ []) :
    ∃ b, refArrayToBytes refs = .ok b := by
  obtain ⟨b, h, _⟩ := refs_roundtrip refs hne
  exact ⟨b, h⟩

theorem rawWrite_noPanic {lz : LZ4} (hlz : ∀ p, lz.enc p ≠ .panic) (r : Raw) :
    rawWrite lz r ≠ .panic := by
  unfold rawWrite
  split
  · rcases he : lz.enc r.payload with d | e | _
    · simp
    · simp
    · exact absurd he (hlz _)
  · simp

theorem writeChunks_noPanic {lz : LZ4} (hlz : ∀ p, lz.enc p ≠ .panic) (u : Bool) :
    ∀ (cs : List Chunk), (∀ c ∈ cs, c.body.payload ≠ .panic) → writeChunks lz u cs ≠ .panic := by
  intro cs
  induction cs with
  | nil => intro _ h; cases h
  | cons c cs ih =>
    intro h
    have h1 : writeChunk lz u c ≠ .panic := by
      unfold writeChunk
      have := h c (by simp)
      rcases hp : c.body.payload with p | e | _
      · exact rawWrite_noPanic hlz _
      · simp
      · exact absurd hp this
    have h2 := ih fun c hc => h c (by simp [hc])
    simp only [writeChunks]
    rcases hc : writeChunk lz u c with x | e | _
    · rcases hcs : writeChunks lz u cs with y | e | _
      · simp
      · simp
      · exact absurd hcs h2
    · simp
    · exact absurd hc h1

/-- Encoding succeeds up to the compression of the chunks, if the PROP chunks can be made. -/
theorem codecEncode_of_props (it : Iter) (srt : Sorter) (hash : Bytes → Bytes) (place : Bool) (h : Heap ρ)
    (root : Root ρ) (l : Map ρ (Inst ρ)) (ht : Trees h root.instances l) (hn : l.length < 2 ^ 31)
    (hok : (propChunks it srt hash place l 0 (classList it srt place (l.map Prod.snd)) []).isOk) :
    ∃ f, codecEncode it srt hash place h root = .ok f ∧
      ∀ c ∈ f.chunks, ∃ b, c.body.payload = .ok b := by
  obtain ⟨pairs, e1, e2, _⟩ := parentLinks_trees ht
  obtain ⟨names, hnn, hns, hnm, hcl⟩ := classList_eq it srt place (l.map Prod.snd)
  have hne : ∀ cls ∈ names, classInsts (l.map Prod.snd) cls ≠ [] := by
    intro cls hc h0
    obtain ⟨i, hi, rfl⟩ := (hnm cls).1 hc
    obtain ⟨q, hq⟩ := List.mem_iff_getElem?.1 hi
    have : (i, q) ∈ members (l.map Prod.snd).zipIdx i.className := mem_members.2 ⟨hq, rfl⟩
    have : i ∈ classInsts (l.map Prod.snd) i.className := List.mem_map.2 ⟨_, this, rfl⟩
    rw [h0] at this; cases this
  rcases hp : propChunks it srt hash place l 0 (classList it srt place (l.map Prod.snd)) [] with
    ⟨props, shared⟩ | e | _
  · refine ⟨_, by simp only [codecEncode, instList_trees ht, Res.ok_bind, hp, e1, Res.pure_eq];
                  rfl, ?_⟩
    rw [hcl] at hp
    obtain ⟨_, _, hpo⟩ := propChunks_ok (used := UsedShared l) hn
      (fun x hx n s hs => ⟨x, hx, n, hs⟩) names 0 [] shared props ⟨by simp, by simp⟩ hp
    intro c hc
    simp only [List.mem_append] at hc
    rcases hc with (((hc | hc) | hc) | hc) | hc
    · split at hc
      · cases hc
      · simp only [List.mem_singleton] at hc; subst hc; exact ⟨_, rfl⟩
    · split at hc
      · cases hc
      · simp only [List.mem_singleton] at hc; subst hc; exact ⟨_, rfl⟩
    · obtain ⟨i, _, rfl⟩ := List.mem_map.1 hc
      simp only [Body.payload]
      split
      · exact ⟨_, rfl⟩
      · rename_i hids
        obtain ⟨b, hb⟩ := refArrayToBytes_ok i.ids hids
        exact ⟨_, by simp only [hb, Res.ok_bind, Res.pure_eq]; rfl⟩
    · obtain ⟨p, hp', rfl⟩ := List.mem_map.1 hc
      exact hpo.payload hne p hp'
    · simp only [List.mem_cons, List.not_mem_nil, or_false] at hc
      rcases hc with rfl | rfl
      · simp only [Body.payload, List.length_map, ne_eq, not_true, if_false]
        by_cases h0 : pairs = []
        · subst h0; exact ⟨_, rfl⟩
        · obtain ⟨b, hb⟩ := refArrayToBytes_ok (pairs.map fun x => refNum l (some x.1)) (by simpa)
          obtain ⟨b', hb'⟩ := refArrayToBytes_ok (pairs.map fun x => refNum l x.2) (by simpa)
          have h1 : (pairs.map fun x => refNum l (some x.1)) ≠ [] := by simpa
          exact ⟨_, by simp only [if_neg h1, hb, hb', Res.ok_bind, Res.pure_eq]; rfl⟩
      · exact ⟨_, rfl⟩
  · rw [hp] at hok; exact hok.elim
  · rw [hp] at hok; exact hok.elim

/-- Encoding succeeds up to the compression of the chunks. -/
theorem codecEncode_ok (it : Iter) (srt : Sorter) (hash : Bytes → Bytes) (place : Bool) (h : Heap ρ)
    (root : Root ρ) (l : Map ρ (Inst ρ)) (ht : Trees h root.instances l) (hn : l.length < 2 ^ 31)
    (ho : ∀ cls n, OptionalsOk (valuesOf (classmates l cls) n)) :
    ∃ f, codecEncode it srt hash place h root = .ok f ∧
      ∀ c ∈ f.chunks, ∃ b, c.body.payload = .ok b := by
  refine codecEncode_of_props it srt hash place h root l ht hn ?_
  obtain ⟨names, -, -, -, hcl⟩ := classList_eq it srt place (l.map Prod.snd)
  rw [hcl]
  exact propChunks_isOk it srt hash place l hn
    (fun cls n => by rw [classInsts_eq]; exact ho cls n) names 0 []

end Rbxl

import Verif.Rbxl.WireValue
/-!
# Reading the bytes of `Spec.Wire`
-/
namespace Rbxl
open Go Rbxfile Spec

variable {ρ : Type} [DecidableEq ρ]

/-! ## Values -/

/-- Elements of the same bytes. -/
structure WireAlike (x x' : Val) : Prop where
  type : x'.type = x.type
  value : Wire.value x' = Wire.value x
  rotation : Wire.rotationOf x' = Wire.rotationOf x
  position : Wire.positionOf x' = Wire.positionOf x
  number : Wire.number x' = Wire.number x

theorem WireAlike.rfl (x : Val) : WireAlike x x := ⟨.refl _, .refl _, .refl _, .refl _, .refl _⟩

theorem turned_alike {r : Matrix} {id : Byte} {m : Rot} (pos : Vec3) (h : Wire.Turned r id m) :
    ∃ s m', (match cframeSpecialNumber r with
      | some s => some (Val.cframe s Rot.zero pos)
      | none => some (Val.cframe 0 (rotOfMatrix r) pos)) = some (Val.cframe s m' pos) ∧
    WireAlike (.cframe id m pos) (.cframe s m' pos) := by
  cases hs : cframeSpecialNumber r with
  | none =>
    obtain ⟨h1, h2⟩ := h.other fun ha => by
      have := (Props.C26_axis_aligned_iff r).2 ha
      rw [hs] at this
      cases this
    subst h1 h2
    exact ⟨_, _, rfl, WireAlike.rfl _⟩
  | some s =>
    obtain ⟨i, j, hr, rfl⟩ := (Props.C26_id_iff_rotation r s).1 hs
    have hid := h.aligned i j hr
    obtain ⟨x, y, hx, hy, -, -⟩ := hr
    have h1 := (List.getElem?_eq_some_iff.1 hx).1
    have h2 := (List.getElem?_eq_some_iff.1 hy).1
    simp only [normals, List.length_cons, List.length_nil] at h1 h2
    have e : id = BitVec.ofNat 8 (6 * i + j + 1) := by
      apply BitVec.eq_of_toNat_eq
      rw [BitVec.toNat_ofNat, hid]
      omega
    have e0 : BitVec.ofNat 8 (6 * i + j + 1) ≠ 0 := by
      intro h0
      have := congrArg BitVec.toNat h0
      rw [BitVec.toNat_ofNat] at this
      simp at this
      omega
    subst e
    refine ⟨_, Rot.zero, rfl, rfl, ?_, ?_, rfl, rfl⟩
    · simp only [Wire.value, Wire.rotation, if_neg e0]
    · simp only [Wire.rotationOf, Wire.rotation, if_neg e0]

theorem target_refNum {l : Map ρ (Inst ρ)} (hok : l.Ok) {p : Option ρ} {i : BitVec 32} (h : Wire.Target l p i) : i = refNum l p := by
  cases p with
  | none => exact h
  | some p =>
    by_cases hp : p ∈ l.map Prod.fst
    · have := h.1 hp
      obtain ⟨x, hx, rfl⟩ := Option.map_eq_some_iff.1 this
      rw [refNum_of_idx hok hx]
      simp
    · rw [h.2 hp, refNum_not_mem hp]

/-- The shared strings with hashes that tell them apart. -/
def selfShared (strings : List Bytes) : Shared := strings.map fun s => (s, s)

theorem stores_enc {l : Map ρ (Inst ρ)} (hok : l.Ok) {strings : List Bytes} {v : Value ρ} {x : Val}
    (h : Wire.Stores l strings v x) : ∃ x', WireAlike x x' ∧ Enc id (refNum l) x.type (selfShared strings) (some v) x' := by
  cases v <;> first
    | exact ⟨x, WireAlike.rfl x, rfl, by rw [Wire.Stores] at h; subst h; rfl⟩
    | skip
  case cframe pos r =>
    obtain ⟨i, m, rfl, ht⟩ := h
    obtain ⟨s, m', e, ha⟩ := turned_alike ⟨pos.x, pos.y, pos.z⟩ ht
    exact ⟨_, ha, rfl, e⟩
  case reference p =>
    obtain ⟨i, rfl, ht⟩ := h
    exact ⟨_, WireAlike.rfl _, rfl, by rw [target_refNum hok ht]⟩
  case sharedString s =>
    obtain ⟨k, rfl, hk⟩ := h
    refine ⟨_, WireAlike.rfl _, rfl, k, (s, s), rfl, ?_, rfl⟩
    rw [selfShared, List.getElem?_map, hk]; rfl
  case optional t o => exact absurd h id

theorem blank_new {l : Map ρ (Inst ρ)} {x : Val} (h : Wire.Blank l x) : ∃ x', WireAlike x x' ∧ newValue x.type = some x' := by
  rcases h with rfl | rfl | ⟨t, h1, h2, h⟩
  · exact ⟨_, WireAlike.rfl _, rfl⟩
  · exact ⟨_, WireAlike.rfl _, rfl⟩
  · cases t <;> first
      | exact absurd rfl h1
      | exact absurd rfl h2
      | exact absurd h id
      | exact ⟨x, WireAlike.rfl x, by cases h; rfl⟩
      | skip
    obtain ⟨i, m, rfl, ht⟩ := h
    obtain ⟨s, m', e, ha⟩ := turned_alike ⟨0, 0, 0⟩ ht
    rw [zero_special] at e
    injection e with e
    exact ⟨_, ha, by rw [← e]; rfl⟩

theorem element_enc {l : Map ρ (Inst ρ)} (hok : l.Ok) {strings : List Bytes} {own : Option (Value ρ)} {x : Val}
    (h : Wire.Element l strings own x) : ∃ x', WireAlike x x' ∧ Enc id (refNum l) x.type (selfShared strings) own x' := by
  cases own with
  | some v => exact stores_enc hok h
  | none =>
    obtain ⟨x', h1, h2⟩ := blank_new h
    exact ⟨x', h1, h1.type, h2⟩

theorem optional_enc {l : Map ρ (Inst ρ)} (hok : l.Ok) {strings : List Bytes} {own : Option (Value ρ)} {x : Val × Bool}
    (h : Wire.OptionalElement l strings own x) : ∃ x', (WireAlike x.1 x'.1 ∧ x'.2 = x.2) ∧ EncOpt x.1.type own x' := by
  have key : x.2 = false ∧ Wire.Blank l x.1 → ∃ x' : Val × Bool, (WireAlike x.1 x'.1 ∧ x'.2 = x.2) ∧ x'.1.type = x.1.type ∧
      newValue x.1.type = some x'.1 ∧ x'.2 = false := by
    rintro ⟨h1, h2⟩
    obtain ⟨x', g1, g2⟩ := blank_new h2
    exact ⟨(x', false), ⟨g1, h1.symm⟩, g1.type, g2, rfl⟩
  have some' : ∀ {v : Value ρ}, (x.2 = true ∧ Wire.Stores l strings v x.1) →
      (∀ x', Enc id (refNum l) x.1.type (selfShared strings) (some v) x' → encodeValue v = some x') →
      ∃ x' : Val × Bool, (WireAlike x.1 x'.1 ∧ x'.2 = x.2) ∧ x'.1.type = x.1.type ∧ (x'.2 = false → newValue x.1.type = some x'.1) ∧
        ((x'.2 = true ∧ encodeValue v = some x'.1) ∨ (x'.2 = false ∧ encodeValue v = none)) := by
    rintro v ⟨h1, h2⟩ hv
    obtain ⟨x', g1, g2⟩ := stores_enc hok h2
    exact ⟨(x', true), ⟨g1, h1.symm⟩, g1.type, nofun, .inl ⟨rfl, hv _ g2⟩⟩
  cases own with
  | none =>
    obtain ⟨x', g1, g2, g3, g4⟩ := key h
    exact ⟨x', g1, g2, fun _ => g3, g4⟩
  | some v =>
    cases v <;> first
      | (obtain ⟨x', g1, g2, g3, g4⟩ := key h
         exact ⟨x', g1, g2, fun _ => g3, g4⟩)
      | skip
    case optional ty o =>
      cases o with
      | none =>
        obtain ⟨x', g1, g2, g3, g4⟩ := key h
        exact ⟨x', g1, g2, fun _ => g3, g4⟩
      | some v =>
        cases v <;> first
          | (obtain ⟨x', g1, g2, g3, g4⟩ := key h
             exact ⟨x', g1, g2, fun _ => g3, .inr ⟨g4, rfl⟩⟩)
          | (obtain ⟨x', g1, g2, g3, g4⟩ := some' h (fun _ he => he.2)
             exact ⟨x', g1, g2, g3, g4⟩)

/-! ## Arrays -/

theorem alike_elements {t : TypeID} {vs vs' : List Val} (h : List.Forall₂ WireAlike vs vs') :
    Wire.elements t vs' = Wire.elements t vs := by
  have h1 : vs'.map Wire.value = vs.map Wire.value := by
    induction h with
    | nil => rfl
    | cons h1 _ ih => rw [List.map_cons, List.map_cons, h1.value, ih]
  have h2 : vs'.map Wire.rotationOf = vs.map Wire.rotationOf := by
    clear h1
    induction h with
    | nil => rfl
    | cons h1 _ ih => rw [List.map_cons, List.map_cons, h1.rotation, ih]
  have h3 : vs'.map Wire.positionOf = vs.map Wire.positionOf := by
    clear h1 h2
    induction h with
    | nil => rfl
    | cons h1 _ ih => rw [List.map_cons, List.map_cons, h1.position, ih]
  have h4 : vs'.map Wire.number = vs.map Wire.number := by
    clear h1 h2 h3
    induction h with
    | nil => rfl
    | cons h1 _ ih => rw [List.map_cons, List.map_cons, h1.number, ih]
  have h5 : Wire.value (vs'.headD (.bool false)) = Wire.value (vs.headD (.bool false)) := by
    cases h with
    | nil => rfl
    | cons h6 _ => exact h6.value
  simp only [Wire.elements, List.flatMap_def, h1, h2, h3, h4, h5]

theorem exists_forall₂ {α β γ : Type} {R : α → β → Prop} {S : β → γ → Prop} {T : α → γ → Prop}
    (h : ∀ a b, R a b → ∃ c, S b c ∧ T a c) {as : List α} {bs : List β} (hf : List.Forall₂ R as bs) :
    ∃ cs, List.Forall₂ S bs cs ∧ List.Forall₂ T as cs := by
  induction hf with
  | nil => exact ⟨[], .nil, .nil⟩
  | cons h1 _ ih =>
    obtain ⟨cs, h2, h3⟩ := ih
    obtain ⟨c, h4, h5⟩ := h _ _ h1
    exact ⟨c :: cs, .cons h4 h2, .cons h5 h3⟩

theorem forall₂_and_right {α β : Type} {R : α → β → Prop} {P : β → Prop} {as : List α} {bs : List β} (h : List.Forall₂ R as bs)
    (hp : ∀ b ∈ bs, P b) : List.Forall₂ (fun a b => R a b ∧ P b) as bs := by
  induction h with
  | nil => exact .nil
  | cons h1 _ ih => exact .cons ⟨h1, hp _ List.mem_cons_self⟩ (ih fun b hb => hp b (List.mem_cons_of_mem _ hb))

/-- The kind of an array. -/
def kindOf (p : PropChunk) : Kind :=
  match p.props with
  | some (.plain t _) => .plain t
  | some (.optional a _) => .opt a.type
  | _ => .plain .string

/-- A chunk of the same bytes that the encoder writes. -/
theorem column_chunk {l : Map ρ (Inst ρ)} (hok : l.Ok) {strings : List Bytes} {insts : List (Inst ρ)} {p : PropChunk}
    (h : Wire.Column l strings insts p) : ∃ p', (Wire.content (.prop p') = Wire.content (.prop p) ∧ p'.classID = p.classID ∧
      p'.name = p.name ∧ TypedBody (.prop p')) ∧ ChunkOk id (refNum l) (selfShared strings) p.classID insts (p.name, kindOf p) p' := by
  rcases h with ⟨t, vs, e, ht, hf⟩ | ⟨t, vs, e, ht, hf⟩
  · obtain ⟨vs', h1, h2⟩ := exists_forall₂ (S := WireAlike)
      (T := fun i x => Enc id (refNum l) t (selfShared strings) (i.properties.get? p.name) x) (by
      rintro i x ⟨hx, rfl⟩
      exact element_enc hok hx) (forall₂_and_right hf ht)
    refine ⟨⟨p.classID, p.name, some (.plain t vs')⟩, ⟨?_, rfl, rfl, ?_⟩, rfl, rfl, ?_⟩
    · simp only [Wire.content, e, Wire.array, Arr.type, alike_elements h1]
    · rintro _ ⟨⟩ v hv
      obtain ⟨i, -, h⟩ := forall₂_mem h2 v hv
      exact h.1
    · simp only [kindOf, e]
      exact ⟨vs', rfl, h2⟩
  · obtain ⟨vs', h1, h2⟩ := exists_forall₂ (S := fun x x' : Val × Bool => WireAlike x.1 x'.1 ∧ x'.2 = x.2)
      (T := fun i x => EncOpt t (i.properties.get? p.name) x) (by
      rintro i x ⟨hx, rfl⟩
      exact optional_enc hok hx) (forall₂_and_right hf ht)
    have ha : List.Forall₂ WireAlike (vs.map Prod.fst) (vs'.map Prod.fst) := by
      clear hf h2 ht e
      induction h1 with
      | nil => exact .nil
      | cons h _ ih => exact .cons h.1 ih
    have hb : vs'.map Prod.snd = vs.map Prod.snd := by
      clear hf h2 ht e ha
      induction h1 with
      | nil => rfl
      | cons h _ ih => rw [List.map_cons, List.map_cons, h.2, ih]
    refine ⟨⟨p.classID, p.name, some (.optional (.plain t (vs'.map Prod.fst)) (vs'.map Prod.snd))⟩, ⟨?_, rfl, rfl, ?_⟩, rfl, rfl, ?_⟩
    · simp only [Wire.content, e, Wire.array, Arr.type, alike_elements ha, hb]
    · rintro _ ⟨⟩ v hv
      obtain ⟨x, hx, rfl⟩ := List.mem_map.1 hv
      obtain ⟨i, -, h⟩ := forall₂_mem h2 x hx
      exact h.1
    · simp only [kindOf, e, Arr.type]
      exact ⟨vs', rfl, h2⟩

/-! ## Chunks -/

omit [DecidableEq ρ] in
theorem postOrder_unique [DecidableEq ρ] {h : Heap ρ} {par : Option ρ} {ps : List ρ} {links links' : List (ρ × Option ρ)}
    (h1 : PostOrder h par ps links) (h2 : PostOrder h par ps links') : links = links' := by
  induction h1 generalizing links' with
  | nil => cases h2; rfl
  | cons hp _ _ ih1 ih2 =>
    cases h2 with
    | cons hp' f1 f2 =>
      rw [hp] at hp'
      cases hp'
      rw [ih1 f1, ih2 f2]

theorem numbered_refNum {l : Map ρ (Inst ρ)} (hok : l.Ok) {p : Option ρ} {i : BitVec 32} (h : Numbered l p i) : i = refNum l p := by
  cases p with
  | none => exact h
  | some p =>
    obtain ⟨x, hx, rfl⟩ := Option.map_eq_some_iff.1 (show (l[i.toNat]?).map Prod.fst = some p from h)
    rw [refNum_of_idx hok hx]
    simp

/-- The PRNT chunk is the one of the encoder. -/
theorem parent_layout {h : Heap ρ} {ps : List ρ} {l : Map ρ (Inst ρ)} (t : Trees h ps l) (hn : l.length < 2 ^ 31)
    {parent : ParentChunk} (hp : parent.version = 0 ∧ ∃ links, PostOrder h none ps links ∧
      List.Forall₂ (fun x i => Numbered l (some x.1) i) links parent.children ∧
      List.Forall₂ (fun x i => Numbered l x.2 i) links parent.parents) : parentLinks h l ps = .ok parent := by
  obtain ⟨pairs, e, -⟩ := parentLinks_trees t
  obtain ⟨-, links, g1, g2, g3⟩ := parentLinks_layout t hn e
  obtain ⟨h0, links', k1, k2, k3⟩ := hp
  obtain rfl := postOrder_unique g1 k1
  have eq : ∀ {f : ρ × Option ρ → Option ρ} {xs ys : List (BitVec 32)}, List.Forall₂ (fun x i => Numbered l (f x) i) links xs →
      List.Forall₂ (fun x i => Numbered l (f x) i) links ys → xs = ys := by
    intro f xs ys a b
    have key : ∀ {xs : List (BitVec 32)}, List.Forall₂ (fun x i => Numbered l (f x) i) links xs →
        xs = links.map fun x => refNum l (f x) := by
      intro zs c
      clear g1 g2 g3 k1 k2 k3 b a
      induction c with
      | nil => rfl
      | cons h1 _ ih => rw [List.map_cons, ← ih, numbered_refNum t.2 h1]
    rw [key a, key b]
  rw [e]
  obtain ⟨v, cs, qs⟩ := parent
  simp only at h0 k2 k3 g2 g3
  subst h0
  rw [eq (f := fun x => some x.1) g2 k2, eq (f := fun x => x.2) g3 k3]

omit [DecidableEq ρ] in
theorem toNat_inj : ∀ {xs ys : List (BitVec 32)}, xs.map (·.toNat) = ys.map (·.toNat) → xs = ys
  | [], [], _ => rfl
  | [], _ :: _, h => by cases h
  | _ :: _, [], h => by cases h
  | x :: xs, y :: ys, h => by
    simp only [List.map_cons, List.cons.injEq] at h
    rw [BitVec.eq_of_toNat_eq h.1, toNat_inj h.2]

omit [DecidableEq ρ] in
/-- The INST chunk of a class has the bytes of the one of the encoder. -/
theorem classChunk_content {place : Bool} {l : Map ρ (Inst ρ)} {k : Nat} {c c' : InstChunk} (h : ClassChunk place l k c)
    (h' : ClassChunk place l k c') (e : c.className = c'.className) : Wire.content (.inst c) = Wire.content (.inst c') := by
  have e1 : c.classID = c'.classID := BitVec.eq_of_toNat_eq (by rw [h.id, h'.id])
  have e2 : c.ids = c'.ids := toNat_inj (by rw [h.ids, h'.ids, e])
  have e3 : c.isService = c'.isService := by
    rw [Bool.eq_iff_iff, h.services, h'.services, e]
  have e4 : (if c.isService then c.getService else []) = if c'.isService then c'.getService else [] := by
    rw [e3]
    cases hs : c'.isService with
    | false => rfl
    | true => rw [h.flags (by rw [e3, hs]), h'.flags hs, e]
  simp only [Wire.content, e, e1, e2, e3]
  rw [← e3, e4, e3]

/-- A list ordered by a number, split at the smallest one. -/
theorem split_least {α : Type} (key : α → Nat) (k : Nat) : ∀ {xs : List α}, xs.Pairwise (fun a b => key a ≤ key b) →
    (∀ x ∈ xs, k ≤ key x) → xs = (xs.filter fun x => decide (key x = k)) ++ xs.filter fun x => decide (k < key x)
  | [], _, _ => rfl
  | x :: xs, h, hk => by
    obtain ⟨h1, h2⟩ := List.pairwise_cons.1 h
    have hx := hk x List.mem_cons_self
    have ih := split_least key k h2 fun y hy => hk y (List.mem_cons_of_mem _ hy)
    by_cases e : key x = k
    · have : ¬ k < key x := by omega
      simp only [List.filter_cons, e, decide_true, if_true, Nat.lt_irrefl, decide_false, Bool.false_eq_true, if_false,
        List.cons_append]
      exact congrArg _ ih
    · have hlt : k < key x := by omega
      have hnil : xs.filter (fun x => decide (key x = k)) = [] := by
        rw [List.filter_eq_nil_iff]
        intro y hy
        have := h1 y hy
        simp only [decide_eq_true_eq]
        omega
      simp only [List.filter_cons, e, decide_false, Bool.false_eq_true, if_false, hlt, decide_true, if_true, hnil, List.nil_append]
      rw [hnil, List.nil_append] at ih
      exact congrArg _ ih

omit [DecidableEq ρ] in
/-- The PROP chunks of all classes. -/
theorem propsOk_of {ref : Option ρ → BitVec 32} {place : Bool} {insts : List (Inst ρ)} {sh : Shared} {N : Nat} (hN : N < 2 ^ 32) :
    ∀ {names : List Bytes} {k : Nat} {cs : List PropChunk}, k + names.length ≤ N →
    cs.Pairwise PropBefore →
    (∀ p ∈ cs, ∃ x ∈ names.zipIdx k, p.classID = BitVec.ofNat 32 x.2 ∧ ∃ kd, Written place (valuesOf (classInsts insts x.1) p.name) ∧
      PlanSpec place (valuesOf (classInsts insts x.1) p.name) kd ∧
      ChunkOk id ref sh p.classID (classInsts insts x.1) (p.name, kd) p) →
    (∀ x ∈ names.zipIdx k, ∀ n, Written place (valuesOf (classInsts insts x.1) n) →
      ∃ p ∈ cs, p.classID = BitVec.ofNat 32 x.2 ∧ p.name = n) →
    PropsOk id ref place insts sh k names cs := by
  intro names
  induction names with
  | nil =>
    intro k cs _ _ h _
    cases cs with
    | nil => rfl
    | cons p cs => obtain ⟨x, hx, -⟩ := h p List.mem_cons_self; cases hx
  | cons cls names ih =>
    intro k cs hk hs hc ha
    simp only [List.length_cons] at hk
    have hat : ∀ {x : Bytes × Nat} {k' : Nat}, x ∈ names.zipIdx k' → k' ≤ x.2 ∧ x.2 < k' + names.length := by
      intro x k' hx
      have := List.mem_zipIdx hx
      omega
    have hid : ∀ p ∈ cs, k ≤ p.classID.toNat := by
      intro p hp
      obtain ⟨x, hx, e, -⟩ := hc p hp
      rw [e, BitVec.toNat_ofNat, Nat.mod_eq_of_lt]
      · rw [List.zipIdx_cons] at hx
        rcases List.mem_cons.1 hx with rfl | hx
        · exact Nat.le_refl _
        · have := hat hx; omega
      · rw [List.zipIdx_cons] at hx
        rcases List.mem_cons.1 hx with rfl | hx
        · show k < _; omega
        · have := hat hx; omega
    have hsplit := split_least (fun p : PropChunk => p.classID.toNat) k (hs.imp (by
      rintro a b (h | h)
      · exact Nat.le_of_lt h
      · rw [h.1]; exact Nat.le_refl _)) hid
    generalize hxs : (cs.filter fun p => decide (p.classID.toNat = k)) = xs at hsplit
    generalize hys : (cs.filter fun p => decide (k < p.classID.toNat)) = ys at hsplit
    have mx : ∀ p, p ∈ xs ↔ p ∈ cs ∧ p.classID.toNat = k := by
      intro p; rw [← hxs, List.mem_filter, decide_eq_true_eq]
    have my : ∀ p, p ∈ ys ↔ p ∈ cs ∧ k < p.classID.toNat := by
      intro p; rw [← hys, List.mem_filter, decide_eq_true_eq]
    have hx : ∀ p ∈ xs, ∃ kd, Written place (valuesOf (classInsts insts cls) p.name) ∧
        PlanSpec place (valuesOf (classInsts insts cls) p.name) kd ∧
        ChunkOk id ref sh p.classID (classInsts insts cls) (p.name, kd) p := by
      intro p hp
      obtain ⟨h1, h2⟩ := (mx p).1 hp
      obtain ⟨x, hx, e, r⟩ := hc p h1
      rw [List.zipIdx_cons] at hx
      rcases List.mem_cons.1 hx with rfl | hx
      · exact r
      · have := hat hx
        rw [e, BitVec.toNat_ofNat, Nat.mod_eq_of_lt (by omega)] at h2
        omega
    -- a plan
    have hplan : ∃ plan : List (Bytes × Kind), plan.map Prod.fst = xs.map PropChunk.name ∧
        (∀ q ∈ plan, Written place (valuesOf (classInsts insts cls) q.1) ∧ PlanSpec place (valuesOf (classInsts insts cls) q.1) q.2) ∧
        List.Forall₂ (ChunkOk id ref sh (BitVec.ofNat 32 k) (classInsts insts cls)) plan xs := by
      have hk' : ∀ p ∈ xs, p.classID = BitVec.ofNat 32 k := by
        intro p hp
        apply BitVec.eq_of_toNat_eq
        rw [((mx p).1 hp).2, BitVec.toNat_ofNat, Nat.mod_eq_of_lt (by omega)]
      clear hsplit hxs mx
      induction xs with
      | nil => exact ⟨[], rfl, by simp, .nil⟩
      | cons p xs ih' =>
        obtain ⟨plan, a, b, c⟩ := ih' (fun q hq => hx q (List.mem_cons_of_mem _ hq)) fun q hq => hk' q (List.mem_cons_of_mem _ hq)
        obtain ⟨kd, w, s, r⟩ := hx p List.mem_cons_self
        rw [hk' p List.mem_cons_self] at r
        refine ⟨(p.name, kd) :: plan, by simp [a], ?_, .cons r c⟩
        intro q hq
        rcases List.mem_cons.1 hq with rfl | hq
        · exact ⟨w, s⟩
        · exact b q hq
    obtain ⟨plan, p1, p2, p3⟩ := hplan
    refine ⟨plan, xs, ys, hsplit, ⟨?_, p2, ?_⟩, p3, ih (by omega) ?_ ?_ ?_⟩
    · rw [p1]
      unfold List.Nodup
      rw [List.pairwise_map]
      have : xs.Pairwise PropBefore := by
        rw [← hxs]; exact hs.sublist List.filter_sublist
      refine this.imp_of_mem ?_
      intro a b ha' hb' hab e
      rcases hab with h | h
      · rw [((mx a).1 ha').2, ((mx b).1 hb').2] at h; omega
      · rw [e, bytesLt_irrefl] at h; cases h.2
    · intro n hw
      obtain ⟨p, hp, e1, e2⟩ := ha (cls, k) (by rw [List.zipIdx_cons]; exact List.mem_cons_self) n hw
      rw [p1, ← e2]
      refine List.mem_map_of_mem ((mx p).2 ⟨hp, ?_⟩)
      rw [e1, BitVec.toNat_ofNat, Nat.mod_eq_of_lt (by show k < _; omega)]
    · rw [← hys]; exact hs.sublist List.filter_sublist
    · intro p hp
      obtain ⟨h1, h2⟩ := (my p).1 hp
      obtain ⟨x, hx', e, r⟩ := hc p h1
      rw [List.zipIdx_cons] at hx'
      rcases List.mem_cons.1 hx' with rfl | hx'
      · rw [e, BitVec.toNat_ofNat, Nat.mod_eq_of_lt (by show k < _; omega)] at h2
        exact absurd h2 (Nat.lt_irrefl _)
      · exact ⟨x, hx', e, r⟩
    · intro x hx' n hw
      obtain ⟨p, hp, e1, e2⟩ := ha x (by rw [List.zipIdx_cons]; exact List.mem_cons_of_mem _ hx') n hw
      refine ⟨p, (my p).2 ⟨hp, ?_⟩, e1, e2⟩
      have := hat hx'
      rw [e1, BitVec.toNat_ofNat, Nat.mod_eq_of_lt (by omega)]
      omega

/-! ## Files -/

/-- Chunks of the same bytes. -/
structure SameBytes (c c' : Chunk) : Prop where
  content : Wire.content c'.body = Wire.content c.body
  signature : Wire.signature c'.body = Wire.signature c.body
  compressed : c'.compressed = c.compressed
  typed : TypedBody c'.body

theorem same_file {lz : LZ4} {u : Bool} {m m' : FormatModel} {b : Bytes} (h : List.Forall₂ SameBytes m.chunks m'.chunks)
    (hv : m'.version = m.version) (hc : m'.classCount = m.classCount) (hi : m'.instanceCount = m.instanceCount)
    (ht : m'.trailing = m.trailing) (hb : Wire.File lz u m b) : Wire.File lz u m' b := by
  obtain ⟨frames, hf, rfl⟩ := hb
  refine ⟨frames, ?_, by rw [hv, hc, hi, ht]⟩
  generalize m.chunks = cs at h hf
  generalize m'.chunks = cs' at h ⊢
  induction h generalizing frames with
  | nil => cases hf; exact .nil
  | cons h1 _ ih =>
    cases hf with
    | cons g1 g2 =>
      refine .cons ?_ (ih _ g2)
      unfold Wire.Frame at g1 ⊢
      rw [h1.content, h1.signature, h1.compressed]
      exact g1

/-- The chunks of a tree are those of the encoder, as far as the bytes go. -/
theorem treeModel_encoded {place : Bool} {h : Heap ρ} {root : Root ρ} {l : Map ρ (Inst ρ)} (ht : Trees h root.instances l)
    (hn : l.length < 2 ^ 31) {m : FormatModel} (hm : Wire.TreeModel place root.metadata h root.instances l m) :
    ∃ m' names pairs props shared metas shareds, Encoded id place root l m' names pairs props shared metas shareds ∧
      List.Forall₂ SameBytes m.chunks m'.chunks ∧ m'.version = m.version ∧ m'.classCount = m.classCount ∧
      m'.instanceCount = m.instanceCount ∧ m'.trailing = m.trailing := by
  obtain ⟨metas, shareds, insts, props, parent, hl, hcol, cs, e, hcs, hcomp⟩ := hm
  -- classes
  have hdist : insts.Pairwise fun a b => a.className ≠ b.className := hl.sorted.imp fun {a b} hab e => by
    rw [e, bytesLt_irrefl] at hab
    cases hab
  have hnn : (insts.map (·.className)).Nodup := by
    unfold List.Nodup
    rw [List.pairwise_map]; exact hdist
  have hmem : ∀ cls, cls ∈ insts.map (·.className) ↔ ∃ i ∈ l.map Prod.snd, i.className = cls := by
    intro cls
    rw [List.mem_map]
    constructor
    · rintro ⟨c, hc, rfl⟩
      obtain ⟨k, hk⟩ := List.mem_iff_getElem?.1 hc
      obtain ⟨x, hx, e⟩ := (hl.classes k c hk).occurs
      exact ⟨x.2, List.mem_map_of_mem hx, e⟩
    · rintro ⟨i, hi, rfl⟩
      obtain ⟨x, hx, rfl⟩ := List.mem_map.1 hi
      obtain ⟨c, hc, e⟩ := hl.allClasses x hx
      exact ⟨c, hc, e⟩
  have hfew : (insts.map (·.className)).length ≤ l.length := by
    have hsub : insts.map (·.className) ⊆ l.map (fun x => x.2.className) := by
      intro c hc
      obtain ⟨i, hi, rfl⟩ := (hmem c).1 hc
      obtain ⟨x, hx, rfl⟩ := List.mem_map.1 hi
      exact List.mem_map.2 ⟨x, hx, rfl⟩
    have := List.Nodup.length_le_of_subset hnn hsub
    simpa using this
  have hfew' : insts.length ≤ l.length := by simpa using hfew
  have hids : ∀ (k : Nat) (c : InstChunk), insts[k]? = some c → c.classID = BitVec.ofNat 32 k := by
    intro k c hk
    apply BitVec.eq_of_toNat_eq
    have := (List.getElem?_eq_some_iff.1 hk).1
    rw [(hl.classes k c hk).id, toNat_ofNat_lt (by omega)]
  have hsame : ∀ c ∈ insts, ∀ c' ∈ insts, c.classID = c'.classID → c = c' := by
    intro c hc c' hc' e
    obtain ⟨k, hk⟩ := List.mem_iff_getElem?.1 hc
    obtain ⟨k', hk'⟩ := List.mem_iff_getElem?.1 hc'
    have := congrArg BitVec.toNat e
    rw [(hl.classes k c hk).id, (hl.classes k' c' hk').id] at this
    subst this
    rw [hk] at hk'
    exact Option.some.inj hk'
  -- shared strings
  generalize hstr : (shareds.flatMap fun c => c.values.map Prod.snd) = strings at hcol
  have hshared : SharedOk id (UsedShared l) (selfShared strings) ∧
      ((shareds = [] ∧ selfShared strings = []) ∨
        shareds = [⟨0, (selfShared strings).map fun e => (List.replicate 16 0#8, e.2)⟩]) := by
    rcases hl.shared with rfl | ⟨vs, rfl, hne, hnd, hv⟩
    · subst hstr
      exact ⟨⟨by simp [selfShared], by simp [selfShared]⟩, .inl ⟨rfl, rfl⟩⟩
    · have hs : strings = vs.map Prod.snd := by rw [← hstr]; simp
      subst hs
      refine ⟨⟨?_, ?_⟩, .inr ?_⟩
      · intro x hx
        obtain ⟨s, hs, rfl⟩ := List.mem_map.1 hx
        obtain ⟨y, hy, rfl⟩ := List.mem_map.1 hs
        exact ⟨rfl, (hv y hy).2⟩
      · rw [selfShared, List.map_map]
        have : (Prod.fst ∘ fun s : Bytes => (s, s)) = id := rfl
        rw [this, List.map_id]; exact hnd
      · congr 2
        rw [selfShared, List.map_map, List.map_map]
        conv => lhs; rw [← List.map_id vs]
        refine List.map_congr_left fun x hx => ?_
        rw [id, Function.comp, Function.comp, ← (hv x hx).1]
  -- properties
  have hprop : ∀ p : PropChunk, ∃ p', p ∈ props → (Wire.content (.prop p') = Wire.content (.prop p) ∧ p'.classID = p.classID ∧
      p'.name = p.name ∧ TypedBody (.prop p')) ∧ ∃ c ∈ insts, p.classID = c.classID ∧ ∃ kd,
        Written place (valuesOf (classmates l c.className) p.name) ∧ PlanSpec place (valuesOf (classmates l c.className) p.name) kd ∧
        ChunkOk id (refNum l) (selfShared strings) p.classID (classmates l c.className) (p.name, kd) p' := by
    intro p
    by_cases hp : p ∈ props
    · obtain ⟨c, hc, e1, hcc⟩ := hcol p hp
      obtain ⟨c', hc', e2, hv⟩ := hl.values p hp
      obtain rfl := hsame c hc c' hc' (e1.symm.trans e2)
      obtain ⟨p', h1, h2⟩ := column_chunk ht.2 hcc
      refine ⟨p', fun _ => ⟨h1, c, hc, e1, kindOf p, hv.written, ?_, h2⟩⟩
      obtain ⟨a, ea, -, hva⟩ := hv.array
      obtain ⟨t0, ht0, hplace⟩ := hv.written.2
      rcases hcc with ⟨t, vs, e, hty, -⟩ | ⟨t, vs, e, hty, -⟩
      · rw [e] at ea
        cases ea
        simp only [kindOf, e]
        refine ⟨?_, ?_, fun v hv' => (hva v hv').1⟩
        · rintro rfl
          obtain ⟨v, hv'⟩ := List.exists_mem_of_ne_nil _ hv.written.1
          have h3 := (hva v hv').1
          cases v <;> simp only [Value.type, fromValueType, Option.some.injEq, reduceCtorEq, Arr.type] at h3
          obtain ⟨b, present, e', -⟩ := (hva _ hv').2 _ _ rfl
          cases e'
        · intro htu
          obtain ⟨v, hv'⟩ := List.exists_mem_of_ne_nil _ hv.written.1
          have h3 := (hva v hv').1
          rw [htu] at h3
          refine hplace ?_
          rw [← ht0 v hv']
          cases v <;> simp only [Value.type, fromValueType, Option.some.injEq, reduceCtorEq, Arr.type] at h3
          rfl
      · rw [e] at ea
        cases ea
        simp only [kindOf, e, Arr.type]
        intro v hv'
        have h3 := hva v hv'
        cases v <;> simp only [Value.type, fromValueType, Option.some.injEq, reduceCtorEq, Arr.type, false_and] at h3
        obtain ⟨b, present, e', h4⟩ := h3.2 _ _ rfl
        cases e'
        exact ⟨_, _, rfl, h4⟩
    · exact ⟨p, fun h => absurd h hp⟩
  choose g hg using hprop
  have hpo : PropsOk id (refNum l) place (l.map Prod.snd) (selfShared strings) 0 (insts.map (·.className)) (props.map g) := by
    refine propsOk_of (N := insts.length) (by omega) (by simp) ?_ ?_ ?_
    · rw [List.pairwise_map]
      refine hl.ordered.imp_of_mem ?_
      intro a b ha hb hab
      obtain ⟨-, a1, a2, -⟩ := (hg a ha).1
      obtain ⟨-, b1, b2, -⟩ := (hg b hb).1
      unfold PropBefore at hab ⊢
      rw [a1, a2, b1, b2]
      exact hab
    · intro p' hp'
      obtain ⟨p, hp, rfl⟩ := List.mem_map.1 hp'
      obtain ⟨⟨-, a1, a2, -⟩, c, hc, e1, kd, w, s, r⟩ := hg p hp
      obtain ⟨k, hk⟩ := List.mem_iff_getElem?.1 hc
      refine ⟨(c.className, k), ?_, by rw [a1, e1, hids k c hk], kd, ?_, ?_, ?_⟩
      · rw [List.mk_mem_zipIdx_iff_getElem?, List.getElem?_map, hk]; rfl
      · rw [a2, classInsts_mates]; exact w
      · rw [a2, classInsts_mates]; exact s
      · rw [a1, a2, classInsts_mates]; exact r
    · rintro ⟨cls, k⟩ hx n hw
      rw [List.mk_mem_zipIdx_iff_getElem?, List.getElem?_map] at hx
      obtain ⟨c, hk, rfl⟩ := Option.map_eq_some_iff.1 hx
      rw [classInsts_mates] at hw
      obtain ⟨p, hp, e1, e2⟩ := hl.allValues c (List.mem_of_getElem? hk) n hw
      obtain ⟨-, a1, a2, -⟩ := (hg p hp).1
      exact ⟨g p, List.mem_map_of_mem hp, by rw [a1, e1, hids k c hk], by rw [a2, e2]⟩
  -- links
  obtain ⟨pairs, e1, e2, e3, e4, e5, e6⟩ := parentLinks_trees ht
  rw [parent_layout ht hn hl.parents] at e1
  injection e1 with e1
  -- the chunks
  have hend : m.chunks = ((metas.map Body.metadata ++ (shareds.map Body.shared ++ (insts.map Body.inst ++ (props.map Body.prop ++
      [Body.parent parent])))).map fun b => (⟨b, true⟩ : Chunk)) ++ [⟨.end_ endTag, false⟩] := by
    have h1 := hl.chunks
    rw [hcs, List.map_append] at h1
    have h2 : metas.map Body.metadata ++ (shareds.map .shared ++ (insts.map .inst ++ (props.map .prop ++
      [.parent parent, .end_ (str "</roblox>")]))) = (metas.map Body.metadata ++ (shareds.map .shared ++ (insts.map .inst ++
      (props.map .prop ++ [.parent parent])))) ++ [.end_ (str "</roblox>")] := by simp
    rw [h2] at h1
    obtain ⟨h3, h4⟩ := List.append_inj' h1 rfl
    rw [hcs, ← h3, List.map_map]
    simp only [List.map_cons, List.map_nil, List.cons.injEq, and_true] at h4
    congr 1
    · conv => lhs; rw [← List.map_id cs]
      refine List.map_congr_left fun c hc => ?_
      have := hcomp c hc
      cases c
      simp only at this
      subst this
      rfl
    · rw [h4]; rfl
  refine ⟨{ m with chunks := (metas.map (fun vs => (⟨.metadata vs, true⟩ : Chunk)) ++ shareds.map (fun c => (⟨.shared c, true⟩ : Chunk))) ++
      ((insts.map (·.className)).zipIdx.map (fun c => (⟨.inst (clsChunk place (l.map Prod.snd) c), true⟩ : Chunk)) ++
      ((props.map g).map (fun c => (⟨.prop c, true⟩ : Chunk)) ++
        [⟨.parent ⟨0, pairs.map (fun x => refNum l (some x.1)), pairs.map (fun x => refNum l x.2)⟩, true⟩,
          ⟨.end_ endTag, false⟩])) }, insts.map (·.className), pairs, props.map g, selfShared strings,
    metas.map (fun vs => (⟨.metadata vs, true⟩ : Chunk)), shareds.map (fun c => (⟨.shared c, true⟩ : Chunk)), ?_, ?_, rfl, rfl, rfl, rfl⟩
  · exact {
      version := hl.version
      classCount := by
        apply BitVec.eq_of_toNat_eq
        show m.classCount.toNat = _
        rw [hl.classCount, List.length_map, toNat_ofNat_lt (by omega)]
      instanceCount := by
        apply BitVec.eq_of_toNat_eq
        show m.instanceCount.toNat = _
        rw [hl.instanceCount, toNat_ofNat_lt (by omega)]
      trailing := hl.trailing
      chunks := rfl
      metas := by
        have hmeta := hl.metadata
        split at hmeta
        · rename_i h0; exact .inl ⟨by rw [hmeta]; rfl, h0⟩
        · obtain ⟨vs, h1, h2⟩ := hmeta
          exact .inr ⟨vs, h2, by rw [h1]; rfl⟩
      shareds := by
        rcases hshared.2 with ⟨h1, h2⟩ | h1
        · exact .inl ⟨by rw [h1]; rfl, h2⟩
        · exact .inr (by rw [h1]; rfl)
      small := hn
      nodup := hnn
      sorted := by rw [List.pairwise_map]; exact hl.sorted
      mem := hmem
      few := hfew
      pairs_length := e2
      pairs_child := e3
      pairs_parent := e4
      pairs_roots := e5
      pairs_children := e6
      sharedOk := hshared.1
      propsOk := hpo }
  · rw [hend]
    have same : ∀ c : Chunk, TypedBody c.body → SameBytes c c := fun c hc => ⟨rfl, rfl, rfl, hc⟩
    have all : ∀ {xs : List Chunk}, (∀ c ∈ xs, TypedBody c.body) → List.Forall₂ SameBytes xs xs := by
      intro xs hx
      induction xs with
      | nil => exact .nil
      | cons c xs ih => exact .cons (same c (hx c List.mem_cons_self)) (ih fun d hd => hx d (List.mem_cons_of_mem _ hd))
    simp only [List.map_append, List.map_map, List.append_assoc]
    refine List.rel_append (all ?_) (List.rel_append (all ?_) (List.rel_append ?_ (List.rel_append ?_ ?_)))
    · intro c hc; obtain ⟨_, _, rfl⟩ := List.mem_map.1 hc; trivial
    · intro c hc; obtain ⟨_, _, rfl⟩ := List.mem_map.1 hc; trivial
    · rw [List.forall₂_iff_get]
      refine ⟨by simp, ?_⟩
      intro i h1 h2
      have hi : i < insts.length := by simpa using h1
      have hk := List.getElem?_eq_getElem hi
      have hcl := clsChunk_layout place l hn (k := i) (by omega) ((hmem insts[i].className).1
        (List.mem_map_of_mem (List.getElem_mem hi)))
      simp only [List.get_eq_getElem, List.getElem_map, List.getElem_zipIdx, Function.comp, Nat.zero_add]
      exact ⟨(classChunk_content (hl.classes i _ hk) hcl rfl).symm, rfl, rfl, trivial⟩
    · rw [List.forall₂_iff_get]
      refine ⟨by simp, ?_⟩
      intro i h1 h2
      have hi : i < props.length := by simpa using h1
      obtain ⟨a, -, -, d⟩ := (hg props[i] (List.getElem_mem hi)).1
      simp only [List.get_eq_getElem, List.getElem_map, Function.comp]
      exact ⟨a, rfl, rfl, d⟩
    · rw [← e1]
      exact all (by
        intro c hc
        simp only [List.map_cons, List.map_nil, List.cons_append, List.nil_append, List.mem_cons, List.not_mem_nil, or_false] at hc
        rcases hc with rfl | rfl <;> trivial)

/-- Everything known about reading the bytes of a tree. -/
theorem wire_roundtrip (lz : LZ4) (hlz : lz.Lossless) (slack : Bytes → Nat) (quat : Quat) (noXML u : Bool)
    (place : Bool) (h : Heap ρ) (root : Root ρ)
    (l : Map ρ (Inst ρ)) (ht : Trees h root.instances l) (hn : l.length < 2 ^ 31) (hmeta : root.metadata.Ok)
    (hsup : ∀ x ∈ l, ∀ n v, x.2.properties.get? n = some v → Supported v) (m : FormatModel)
    (hm : Wire.TreeModel place root.metadata h root.instances l m)
    (hsmall : ∀ c ∈ m.chunks, (Wire.content c.body).length < 2 ^ 32) (b : Bytes) (hb : Wire.File lz u m b) :
    ∃ stats h' root' d, decodeRoot lz slack quat noXML b = ⟨[], [], stats, .ok (.tree h' root')⟩ ∧
      Corresp l (decodedId l) h' ∧ MissingOk l d ∧
      root'.instances.map some = root.instances.map (decodedId l) ∧
      (∀ k, root'.metadata.get? k = root.metadata.get? k) ∧
      ∀ p inst, (p, inst) ∈ l → ∃ q inst', decodedId l p = some q ∧ h'.get? q = some inst' ∧
        inst'.className = inst.className ∧ inst'.reference = [] ∧
        inst'.isService = (place && inst.isService) ∧
        inst'.children.map some = inst.children.map (decodedId l) ∧
        ∀ n, (Written place (valuesOf (classmates l inst.className) n) →
            ∃ w, inst'.properties.get? n = some w ∧
              Expected (decodedId l) d (valuesOf (classmates l inst.className) n)
                (inst.properties.get? n) w) ∧
          (¬ Written place (valuesOf (classmates l inst.className) n) →
            inst'.properties.get? n = none) := by
  obtain ⟨m', names, pairs, props, shared, metas, shareds, e, hs, hv, hc, hi, htr⟩ := treeModel_encoded ht hn hm
  have hfit : ∀ c ∈ m'.chunks, c.body.Fits := by
    intro c' hc' x hx
    obtain ⟨c, hcm, h1⟩ := forall₂_mem hs c' hc'
    rw [payload_wire h1.typed hx, h1.content]
    exact hsmall c hcm
  have hgood := e.good hsup hfit
  have hb' := file_write (fun c hc => (goodChunks_content hgood c hc).2) (same_file hs hv hc hi htr hb)
  obtain ⟨stats, hd, _⟩ := Props.C08_file_roundtrip lz hlz slack noXML u m' e.version hgood b hb'
  obtain ⟨h', root', d, hcd, _, rest⟩ := e.decode ht.2 (Forest.children_mem ht.1) (Forest.roots_mem ht.1)
    hmeta hsup (fun _ _ _ _ e => e) hfit quat u
  refine ⟨stats, h', root', d, ?_, rest⟩
  rw [decodeRoot, hd]
  simp only [e.noWarns u, hcd, Res.ok_bind, Res.pure_eq]

end Rbxl

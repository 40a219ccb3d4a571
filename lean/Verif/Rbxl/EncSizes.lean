import Verif.Rbxl.EncDecode
import Verif.Rbxl.FileLemmas
/-!
# The chunks of an encoded tree fit into the format if their payloads are shorter than 2^32
-/
namespace Rbxl
open Go Rbxfile Spec

variable {ρ : Type}

theorem le_flatMap_length {α : Type} {f : α → Bytes} : ∀ {l : List α} {x : α}, x ∈ l →
    (f x).length ≤ (l.flatMap f).length
  | _ :: _, _, h => by
    simp only [List.flatMap_cons, List.length_append]
    rcases List.mem_cons.1 h with rfl | h
    · omega
    · have := le_flatMap_length (f := f) h; omega

theorem length_le_flatMap {α : Type} {f : α → Bytes} : ∀ {l : List α}, (∀ x ∈ l, 1 ≤ (f x).length) →
    l.length ≤ (l.flatMap f).length
  | [], _ => by simp
  | x :: l, h => by
    have h1 := h x (by simp)
    have := length_le_flatMap (f := f) (l := l) fun y hy => h y (List.mem_cons_of_mem _ hy)
    simp only [List.flatMap_cons, List.length_append, List.length_cons]; omega

theorem lenOk_of_bytes {v : Val} (h : v.bytes.length < 2 ^ 32) : v.lenOk := by
  cases v <;> simp only [Val.lenOk] <;> simp only [Val.bytes_length, Val.bytesLen] at h <;> omega

/-- The payload of a chunk is shorter than 2^32. -/
def Body.Fits (b : Body) : Prop := ∀ e, b.payload = .ok e → e.length < 2 ^ 32

theorem ofType_plain {t : TypeID} {vs : List Val} (ht : ∀ v ∈ vs, v.type = t)
    (h : ∀ b, plainToBytes t vs = .ok b → b.length < 2 ^ 32) : OfType t vs := by
  intro v hv
  refine ⟨ht v hv, ?_⟩
  have hbig : plainToBytes t vs = .ok (vs.flatMap Val.bytes) → v.lenOk := by
    intro e
    have := h _ e
    have h2 := le_flatMap_length (f := Val.bytes) hv
    exact lenOk_of_bytes (by omega)
  have htv := ht v hv
  cases v <;> simp only [Val.lenOk] <;> simp only [Val.type] at htv <;> subst htv <;> exact hbig rfl

theorem ofType_arr {c : PropChunk} {t : TypeID} {vs : List Val} (ht : ∀ v ∈ vs, v.type = t)
    (ha : c.props = some (.plain t vs) ∨ ∃ p, c.props = some (.optional (.plain t vs) p))
    (hf : (Body.prop c).Fits) : OfType t vs := by
  apply ofType_plain ht
  intro b hb
  rcases ha with ha | ⟨p, ha⟩
  · have := hf _ (by simp only [Body.payload, ha, typeArrayToBytes, Arr.toBytes, hb, Res.ok_bind,
        Res.pure_eq]; rfl)
    simp only [List.length_append, List.length_cons] at this
    omega
  · have hp : plainToBytes .bool (p.map Val.bool) = .ok ((p.map Val.bool).flatMap Val.bytes) := rfl
    have := hf _ (by simp only [Body.payload, ha, typeArrayToBytes, Arr.toBytes, hb, hp, Res.ok_bind,
        Res.pure_eq]; rfl)
    simp only [List.length_append, List.length_cons] at this
    omega

theorem writeString_length (s : Bytes) : (writeString s).length = 4 + s.length := by
  simp [writeString]

theorem good_prop {g : Map (BitVec 32) (Nat × InstChunk)} {c : PropChunk} {a : Arr} {i : Nat}
    {ch : InstChunk} (hc : c.props = some a) (hg : g.get? c.classID = some (i, ch))
    (ha : a.Good ch.ids.length) (hf : (Body.prop c).Fits) : (Body.prop c).Good g := by
  obtain ⟨b, hb, _⟩ := typeArray_roundtrip a _ ha
  have := hf _ (by simp only [Body.payload, hc, hb, Res.ok_bind, Res.pure_eq]; rfl)
  simp only [List.length_append, writeString_length] at this
  refine ⟨by omega, i, ch, hg, ?_⟩
  intro a' ha'
  rw [hc] at ha'; cases ha'; exact ha

theorem good_inst {g : Map (BitVec 32) (Nat × InstChunk)} {c : InstChunk}
    (hs : c.isService = true → c.getService.length = c.ids.length)
    (hf : (Body.inst c).Fits) : (Body.inst c).Good g := by
  by_cases hne : c.ids = []
  · have := hf _ (by simp only [Body.payload, hne, if_true, Res.ok_bind, Res.pure_eq]; rfl)
    simp only [List.length_append, writeString_length] at this
    exact ⟨by omega, by simp [hne], hs⟩
  · obtain ⟨e, h1, h2, _⟩ := refs_roundtrip c.ids hne
    have := hf _ (by simp only [Body.payload, hne, if_false, h1, Res.ok_bind, Res.pure_eq]; rfl)
    simp only [List.length_append, writeString_length, List.length_cons] at this
    exact ⟨by omega, by omega, hs⟩

theorem good_parent {g : Map (BitVec 32) (Nat × InstChunk)} {c : ParentChunk}
    (hs : c.parents.length = c.children.length)
    (hf : (Body.parent c).Fits) : (Body.parent c).Good g := by
  refine ⟨hs, ?_⟩
  by_cases hne : c.children = []
  · simp [hne]
  · have hne2 : c.parents ≠ [] := by
      intro h; apply hne; rw [← List.length_eq_zero_iff, ← hs, h]; rfl
    obtain ⟨e, h1, h2, _⟩ := refs_roundtrip c.children hne
    obtain ⟨e', h1', h2', _⟩ := refs_roundtrip c.parents hne2
    have := hf _ (by simp only [Body.payload, hs, ne_eq, not_true_eq_false, hne, if_false, h1, h1',
      Res.ok_bind, Res.pure_eq]; rfl)
    simp only [List.length_append, List.length_cons] at this
    omega

theorem good_meta {g : Map (BitVec 32) (Nat × InstChunk)} {vs : List (Bytes × Bytes)}
    (hf : (Body.metadata vs).Fits) : (Body.metadata vs).Good g := by
  have hl := hf _ rfl
  simp only [List.length_append] at hl
  have h1 := length_le_flatMap (f := fun kv : Bytes × Bytes => writeString kv.1 ++ writeString kv.2)
    (l := vs) (by intro x _; simp only [List.length_append, writeString_length]; omega)
  refine ⟨by omega, ?_⟩
  intro kv hkv
  have := le_flatMap_length (f := fun kv : Bytes × Bytes => writeString kv.1 ++ writeString kv.2) hkv
  simp only [List.length_append, writeString_length] at this hl
  constructor <;> omega

theorem good_shared {g : Map (BitVec 32) (Nat × InstChunk)} {c : SharedChunk}
    (h16 : ∀ hv ∈ c.values, hv.1.length = 16)
    (hf : (Body.shared c).Fits) : (Body.shared c).Good g := by
  have hl := hf _ rfl
  simp only [List.length_append] at hl
  have h1 := length_le_flatMap (f := fun hv : Bytes × Bytes => hv.1 ++ writeString hv.2)
    (l := c.values) (by intro x _; simp only [List.length_append, writeString_length]; omega)
  refine ⟨by omega, ?_⟩
  intro kv hkv
  have := le_flatMap_length (f := fun hv : Bytes × Bytes => hv.1 ++ writeString hv.2) hkv
  simp only [List.length_append, writeString_length] at this hl
  exact ⟨h16 kv hkv, by omega⟩

/-! ### lists of chunks -/

/-- The first part of a list of chunks is good. -/
def GoodPart (g : Map (BitVec 32) (Nat × InstChunk)) (i : Nat) : List Chunk → Prop
  | [] => True
  | c :: cs => c.body.Good g ∧ c.body.sig ≠ sigEND ∧ c.body.Fits ∧
      GoodPart (groupsAfter g i c.body) (i + 1) cs

theorem groupsOf_append : ∀ (as bs : List Chunk) (g) (i : Nat),
    groupsOf g i (as ++ bs) = groupsOf (groupsOf g i as) (i + as.length) bs := by
  intro as
  induction as with
  | nil => intro bs g i; rfl
  | cons a as ih =>
    intro bs g i
    simp only [List.cons_append, groupsOf, ih, List.length_cons]
    congr 1
    omega

theorem goodPart_append : ∀ (as bs : List Chunk) (g) (i : Nat), GoodPart g i as →
    GoodPart (groupsOf g i as) (i + as.length) bs → GoodPart g i (as ++ bs) := by
  intro as
  induction as with
  | nil => intro bs g i _ h; exact h
  | cons a as ih =>
    intro bs g i h h'
    obtain ⟨h1, h2, h3, h4⟩ := h
    refine ⟨h1, h2, h3, ih bs _ _ h4 ?_⟩
    simp only [groupsOf, List.length_cons] at h'
    rw [show i + 1 + as.length = i + (as.length + 1) by omega]
    exact h'

theorem goodChunks_append : ∀ (as bs : List Chunk) (g) (i : Nat), bs ≠ [] → GoodPart g i as →
    GoodChunks (groupsOf g i as) (i + as.length) bs → GoodChunks g i (as ++ bs) := by
  intro as
  induction as with
  | nil => intro bs g i _ _ h; exact h
  | cons a as ih =>
    intro bs g i hb h h'
    obtain ⟨h1, h2, h3, h4⟩ := h
    have hr := ih bs _ (i + 1) hb h4 (by
      simp only [groupsOf, List.length_cons] at h'
      rw [show i + 1 + as.length = i + (as.length + 1) by omega]
      exact h')
    rw [List.cons_append]
    cases hab : as ++ bs with
    | nil => simp [hb] at hab
    | cons c cs => rw [hab] at hr; exact ⟨h1, h2, h3, hr⟩

theorem groupsOf_noInst : ∀ (cs : List Chunk) (g) (i : Nat),
    (∀ c ∈ cs, ∀ x, c.body ≠ .inst x) → groupsOf g i cs = g := by
  intro cs
  induction cs with
  | nil => intro g i _; rfl
  | cons c cs ih =>
    intro g i h
    have hc : groupsAfter g i c.body = g := by
      have := h c (by simp)
      cases hb : c.body <;> first | rfl | exact absurd hb (this _)
    rw [groupsOf, hc]
    exact ih g _ fun x hx => h x (List.mem_cons_of_mem _ hx)

theorem goodPart_noInst {g : Map (BitVec 32) (Nat × InstChunk)} : ∀ (cs : List Chunk) (i : Nat),
    (∀ c ∈ cs, (∀ x, c.body ≠ .inst x) ∧ c.body.Good g ∧ c.body.sig ≠ sigEND ∧ c.body.Fits) →
    GoodPart g i cs := by
  intro cs
  induction cs with
  | nil => intro i _; trivial
  | cons c cs ih =>
    intro i h
    obtain ⟨h1, h2, h3, h4⟩ := h c (by simp)
    refine ⟨h2, h3, h4, ?_⟩
    have hc : groupsAfter g i c.body = g := by
      cases hb : c.body <;> first | rfl | exact absurd hb (h1 _)
    rw [hc]
    exact ih _ fun x hx => h x (List.mem_cons_of_mem _ hx)

theorem goodPart_insts : ∀ (cs : List InstChunk) (i : Nat) (g : Map (BitVec 32) (Nat × InstChunk)),
    (∀ c ∈ cs, (c.isService = true → c.getService.length = c.ids.length) ∧ (Body.inst c).Fits) →
    GoodPart g i (cs.map fun c => ⟨.inst c, true⟩) := by
  intro cs
  induction cs with
  | nil => intro i g _; trivial
  | cons c cs ih =>
    intro i g h
    obtain ⟨h1, h2⟩ := h c (by simp)
    exact ⟨good_inst h1 h2, by simp [Body.sig, sigINST, sigEND], h2, ih _ _ fun x hx => h x (List.mem_cons_of_mem _ hx)⟩

/-- The group table of a list of class chunks numbered from `k`. -/
theorem groupsOf_classes (mk : Bytes → InstChunk) : ∀ (names : List Bytes) (k off : Nat)
    (g : Map (BitVec 32) (Nat × InstChunk)), k + names.length ≤ 2 ^ 31 →
    let G := groupsOf g (off + k) ((names.zipIdx k).map fun c =>
      (⟨.inst { mk c.1 with classID := BitVec.ofNat 32 c.2 }, true⟩ : Chunk))
    (∀ c ∈ names.zipIdx k, G.get? (BitVec.ofNat 32 c.2) =
      some (off + c.2, ({ mk c.1 with classID := BitVec.ofNat 32 c.2 } : InstChunk).canon)) ∧
    ∀ j, j < k → G.get? (BitVec.ofNat 32 j) = g.get? (BitVec.ofNat 32 j) := by
  intro names
  induction names with
  | nil => intro k off g _; exact ⟨by simp, fun _ _ => rfl⟩
  | cons n names ih =>
    intro k off g hk
    simp only [List.length_cons] at hk
    have := ih (k + 1) off (g.set (BitVec.ofNat 32 k)
      (off + k, ({ mk n with classID := BitVec.ofNat 32 k } : InstChunk).canon)) (by omega)
    simp only [List.zipIdx_cons, List.map_cons, groupsOf, groupsAfter] at this ⊢
    rw [show off + k + 1 = off + (k + 1) by omega]
    obtain ⟨h1, h2⟩ := this
    refine ⟨?_, ?_⟩
    · intro c hc
      rcases List.mem_cons.1 hc with rfl | hc
      · rw [h2 k (by omega)]
        simp
      · exact h1 c hc
    · intro j hj
      rw [h2 j (by omega), Map.get?_set_ne]
      intro e
      have := ofNat_inj (by omega) (by omega) e
      omega

end Rbxl

import Verif.Rbxl.DecodeSpec
/-!
# The codec decodes what the chunks say: the invariant of the loop over the chunks
-/
namespace Rbxl
open Go Rbxfile Spec

theorem gives_snoc {pre : List Chunk} {c : Chunk} {j : Nat} {cls name a} :
    Gives (pre ++ [c]) j cls name a ↔ Gives pre j cls name a ∨ (j = pre.length ∧
      ∃ p, c.body = .prop p ∧ p.classID = cls ∧ p.name = name ∧ p.props = some a) := by
  constructor
  · rintro ⟨ch, p, h1, h2, h3, h4, h5⟩
    by_cases hj : j < pre.length
    · rw [List.getElem?_append_left hj] at h1
      exact .inl ⟨ch, p, h1, h2, h3, h4, h5⟩
    · rw [List.getElem?_append_right (by omega)] at h1
      have hj0 : j = pre.length := by
        by_cases e : j = pre.length
        · exact e
        · rw [List.getElem?_eq_none (by simp; omega)] at h1; cases h1
      subst hj0
      simp only [Nat.sub_self, List.getElem?_cons_zero, Option.some.injEq] at h1
      subst h1
      exact .inr ⟨rfl, p, h2, h3, h4, h5⟩
  · rintro (⟨ch, p, h1, h2⟩ | ⟨rfl, p, h2, h3⟩)
    · have hj : j < pre.length := by
        by_cases hj : j < pre.length
        · exact hj
        · rw [List.getElem?_eq_none (by omega)] at h1; cases h1
      exact ⟨ch, p, by rw [List.getElem?_append_left hj]; exact h1, h2⟩
    · exact ⟨c, p, by simp, h2, h3⟩

theorem _root_.Spec.Gives.lt {pre : List Chunk} {j : Nat} {cls name a} (h : Gives pre j cls name a) : j < pre.length := by
  obtain ⟨ch, p, h1, -⟩ := h
  by_cases hj : j < pre.length
  · exact hj
  · rw [List.getElem?_eq_none (by omega)] at h1; cases h1

/-- The chunks give the instance `id` the value `v` for the property `name`; the class of the instance is looked up in
the table of the model. -/
def Assigned (quat : Quat) (f : FormatModel) (pre : List Chunk) (id : Id) (name : Bytes) (v : Value Id) : Prop :=
  ∃ j cls a pos g i, Gives pre j cls name a ∧ f.groupLookup.get? cls = some (pos, g) ∧ g.ids[i]? = some id ∧
    Reads quat (declared (pre.take j)) (sharedOf (pre.take j)) a i v ∧
    ∀ j' cls' a' pos' g', j < j' → Gives pre j' cls' name a' → f.groupLookup.get? cls' = some (pos', g') → id ∉ g'.ids

theorem assigned_same {quat : Quat} {f : FormatModel} {pre : List Chunk} {c : Chunk} {id name v}
    (h : ∀ p a pos g, c.body = .prop p → p.props = some a → p.name = name →
      f.groupLookup.get? p.classID = some (pos, g) → id ∉ g.ids) :
    Assigned quat f (pre ++ [c]) id name v ↔ Assigned quat f pre id name v := by
  constructor
  · rintro ⟨j, cls, a, pos, g, i, h1, h2, h3, h4, h5⟩
    rcases gives_snoc.1 h1 with h1 | ⟨rfl, p, b1, b2, b3, b4⟩
    · have hj := h1.lt
      rw [List.take_append_of_le_length (by omega)] at h4
      exact ⟨j, cls, a, pos, g, i, h1, h2, h3, h4, fun j' cls' a' pos' g' hlt hg =>
        h5 j' cls' a' pos' g' hlt (gives_snoc.2 (.inl hg))⟩
    · subst b2
      exact absurd (List.mem_of_getElem? h3) (h p a pos g b1 b4 b3 h2)
  · rintro ⟨j, cls, a, pos, g, i, h1, h2, h3, h4, h5⟩
    have hj := h1.lt
    refine ⟨j, cls, a, pos, g, i, gives_snoc.2 (.inl h1), h2, h3, ?_, ?_⟩
    · rw [List.take_append_of_le_length (by omega)]; exact h4
    · intro j' cls' a' pos' g' hlt hg hgl
      rcases gives_snoc.1 hg with hg | ⟨rfl, p, b1, b2, b3, b4⟩
      · exact h5 j' cls' a' pos' g' hlt hg hgl
      · subst b2
        exact h p a' pos' g' b1 b4 b3 hgl

theorem assigned_prop {quat : Quat} {f : FormatModel} {pre : List Chunk} {c : Chunk} {id : Id} {name v} {p : PropChunk}
    {a : Arr} {pos : Nat} {g : InstChunk} {i : Nat} (hb : c.body = .prop p) (ha : p.props = some a)
    (hn : p.name = name) (hg : f.groupLookup.get? p.classID = some (pos, g)) (hi : g.ids[i]? = some id)
    (hnd : g.ids.Nodup) :
    Assigned quat f (pre ++ [c]) id name v ↔ Reads quat (declared pre) (sharedOf pre) a i v := by
  have last : Gives (pre ++ [c]) pre.length p.classID name a :=
    gives_snoc.2 (.inr ⟨rfl, p, hb, rfl, hn, ha⟩)
  constructor
  · rintro ⟨j, cls, a', pos', g', i', h1, h2, h3, h4, h5⟩
    rcases gives_snoc.1 h1 with h1 | ⟨rfl, p', b1, b2, b3, b4⟩
    · exact absurd (List.mem_of_getElem? hi) (h5 _ _ _ _ _ h1.lt last hg)
    · rw [hb] at b1; cases b1
      subst b2
      rw [hg] at h2; cases h2
      rw [ha] at b4; cases b4
      have : i' = i := by
        have hl : i < g.ids.length := by
          by_cases hl : i < g.ids.length
          · exact hl
          · rw [List.getElem?_eq_none (by omega)] at hi; cases hi
        exact ((List.getElem?_inj hl hnd).1 (hi.trans h3.symm)).symm
      subst this
      simpa using h4
  · intro hr
    refine ⟨pre.length, p.classID, a, pos, g, i, last, hg, hi, by simpa using hr, ?_⟩
    intro j' cls' a' pos' g' hlt hgv
    have := hgv.lt
    simp only [List.length_append, List.length_singleton] at this
    omega

/-- The state of the codec says what the chunks so far say. -/
structure DecInv (quat : Quat) (f : FormatModel) (pre : List Chunk) (st : DecState) : Prop where
  keys : st.heap.map Prod.fst = declared pre
  nodup : (declared pre).Nodup
  range : ∀ x ∈ declared pre, x ≠ -1
  shared : st.shared = sharedOf pre
  metadata : st.root.metadata = (pairsOf pre).foldl (fun (m : Map Bytes Bytes) kv => m.set kv.1 kv.2) []
  roots : st.root.instances = childrenIn (linksOf pre) (-1)
  children : ∀ id inst, st.heap.get? id = some inst → inst.children = childrenIn (linksOf pre) id
  cls : ∀ id inst, st.heap.get? id = some inst → ∃ ch ∈ pre, ∃ g, ch.body = .inst g ∧ ∃ i : Nat, g.ids[i]? = some id ∧
    inst.className = g.className ∧ inst.reference = [] ∧
    inst.isService = (g.isService && decide (g.getService[i]? = some 1#8))
  props : ∀ id inst, st.heap.get? id = some inst → ∀ name v,
    inst.properties.get? name = some v ↔ Assigned quat f pre id name v
  known : ∀ j cls name a pos g, Gives pre j cls name a → f.groupLookup.get? cls = some (pos, g) →
    ∀ id ∈ g.ids, id ∈ declared pre

theorem DecInv.start (quat : Quat) (f : FormatModel) : DecInv quat f [] {} where
  keys := rfl
  nodup := by simp [declared]
  range := by simp [declared]
  shared := rfl
  metadata := rfl
  roots := rfl
  children := by simp [Map.get?]
  cls := by simp [Map.get?]
  props := by simp [Map.get?]
  known := by
    intro j cls name a pos g h
    exact absurd h.lt (by simp)

/-- A chunk that is neither INST nor PROP nor PRNT. -/
theorem DecInv.other {quat : Quat} {f : FormatModel} {pre : List Chunk} {st st' : DecState} {c : Chunk}
    (h : DecInv quat f pre st) (h1 : ∀ g, c.body ≠ .inst g) (h2 : ∀ p, c.body ≠ .parent p)
    (h3 : ∀ p a pos g, c.body = .prop p → p.props = some a → f.groupLookup.get? p.classID = some (pos, g) → False)
    (e1 : st'.heap = st.heap) (e2 : st'.root.instances = st.root.instances) (e3 : st'.shared = sharedOf (pre ++ [c]))
    (e4 : st'.root.metadata = (pairsOf (pre ++ [c])).foldl (fun (m : Map Bytes Bytes) kv => m.set kv.1 kv.2) []) :
    DecInv quat f (pre ++ [c]) st' := by
  have hd : declared (pre ++ [c]) = declared pre := by
    rw [declared_snoc]
    cases hb : c.body <;> simp [Body.ids]
    exact absurd hb (h1 _)
  have hl : linksOf (pre ++ [c]) = linksOf pre := by
    rw [linksOf_snoc]
    cases hb : c.body <;> simp [linksOfChunk, hb]
    exact absurd hb (h2 _)
  constructor
  · rw [e1, hd]; exact h.keys
  · rw [hd]; exact h.nodup
  · rw [hd]; exact h.range
  · exact e3
  · exact e4
  · rw [e2, hl]; exact h.roots
  · rw [e1, hl]; exact h.children
  · rw [e1]
    intro id inst hg
    obtain ⟨ch, hm, x⟩ := h.cls id inst hg
    exact ⟨ch, by simp [hm], x⟩
  · rw [e1]
    intro id inst hg name v
    rw [h.props id inst hg name v, assigned_same]
    intro p a pos g b1 b2 _ b3
    exact (h3 p a pos g b1 b2 b3).elim
  · intro j cls name a pos g hgv hgl id hid
    rw [hd]
    rcases gives_snoc.1 hgv with hgv | ⟨rfl, p, b1, b2, b3, b4⟩
    · exact h.known j cls name a pos g hgv hgl id hid
    · subst b2
      exact (h3 p a pos g b1 b4 hgl).elim

theorem DecInv.step {quat : Quat} {f : FormatModel} (hG : ∀ k pos g, f.groupLookup.get? k = some (pos, g) → g.ids.Nodup)
    {pre : List Chunk} {st st' : DecState} {c : Chunk} {ic : Nat} (h : DecInv quat f pre st)
    (e : codecStep quat f ic st c.body = (st', .next)) : DecInv quat f (pre ++ [c]) st' := by
  cases hb : c.body with
  | inst g =>
    rw [hb] at e
    simp only [codecStep] at e
    split at e
    · simp at e
    split at e
    · simp at e
    split at e
    · simp at e
    · simp at e
    rename_i h' hl
    split at e
    · simp at e
    simp only [Prod.mk.injEq, and_true] at e
    subst e
    obtain ⟨g1, g2, g3, -, -⟩ := instLoop_ok g _ _ _ _ _ hl (by rw [h.keys]; exact h.nodup)
    have hd : declared (pre ++ [c]) = declared pre ++ g.ids := by rw [declared_snoc, hb]; rfl
    rw [h.keys] at g1
    have hnd : (declared pre ++ g.ids).Nodup := by rw [← g1]; exact g2
    have hnd' := List.nodup_append.1 hnd
    obtain ⟨a1, a2⟩ := instLoop_get g _ _ _ _ _ hl hnd'.2.1
    have hl : linksOf (pre ++ [c]) = linksOf pre := by
      rw [linksOf_snoc]; simp [linksOfChunk, hb]
    have hr : ∀ x ∈ g.ids, x ≠ -1 := by
      intro x hx he
      have := (g3 x hx).1
      rw [he] at this
      exact absurd this (by decide)
    have out : ∀ x ∈ g.ids, x ∉ declared pre := fun x hx hx' => hnd'.2.2 x hx' x hx rfl
    -- an instance is old, or new
    have cases_ : ∀ id inst, h'.get? id = some inst → (id ∉ g.ids ∧ st.heap.get? id = some inst) ∨
        ∃ i : Nat, g.ids[i]? = some id ∧ inst = ⟨g.className, [], g.isService && decide (g.getService[i]? = some 1#8), [], []⟩ := by
      intro id inst hgi
      by_cases hid : id ∈ g.ids
      · obtain ⟨i, hi⟩ := List.getElem?_of_mem hid
        rw [a1 i id hi] at hgi
        simp only [Nat.zero_add, Option.some.injEq] at hgi
        exact .inr ⟨i, hi, hgi.symm⟩
      · rw [a2 id hid] at hgi
        exact .inl ⟨hid, hgi⟩
    have same : ∀ id name v, Assigned quat f (pre ++ [c]) id name v ↔ Assigned quat f pre id name v := by
      intro id name v
      apply assigned_same
      intro p a pos g' b1
      rw [hb] at b1; cases b1
    constructor
    · simp only; rw [g1, hd]
    · rw [hd]; exact hnd
    · rw [hd]
      intro x hx
      rcases List.mem_append.1 hx with hx | hx
      · exact h.range x hx
      · exact hr x hx
    · rw [sharedOf_snoc, hb]; exact h.shared
    · rw [pairsOf_snoc, hb]; simpa using h.metadata
    · rw [hl]; exact h.roots
    · intro id inst hgi
      rw [hl]
      rcases cases_ id inst hgi with ⟨-, hgi⟩ | ⟨i, hi, rfl⟩
      · exact h.children id inst hgi
      · have hm := List.mem_of_getElem? hi
        exact (childrenIn_nil (hr id hm) (out id hm)).symm
    · intro id inst hgi
      rcases cases_ id inst hgi with ⟨-, hgi⟩ | ⟨i, hi, rfl⟩
      · obtain ⟨ch, hm, x⟩ := h.cls id inst hgi
        exact ⟨ch, by simp [hm], x⟩
      · exact ⟨c, by simp, g, hb, i, hi, rfl, rfl, rfl⟩
    · intro id inst hgi name v
      rw [same]
      rcases cases_ id inst hgi with ⟨-, hgi⟩ | ⟨i, hi, rfl⟩
      · exact h.props id inst hgi name v
      · constructor
        · intro e; simp [Map.get?] at e
        · rintro ⟨j, cls, a, pos, g', i', b1, b2, b3, -⟩
          exact absurd (h.known j cls name a pos g' b1 b2 id (List.mem_of_getElem? b3)) (out id (List.mem_of_getElem? hi))
    · intro j cls name a pos g' hgv hgl id hid
      rw [hd]
      rcases gives_snoc.1 hgv with hgv | ⟨rfl, p, b1, -⟩
      · exact List.mem_append_left _ (h.known j cls name a pos g' hgv hgl id hid)
      · rw [hb] at b1; cases b1
  | prop p =>
    rw [hb] at e
    simp only [codecStep] at e
    split at e
    · simp at e
    split at e
    · rename_i hgl
      simp only [Prod.mk.injEq, and_true] at e
      subst e
      refine h.other (by simp [hb]) (by simp [hb]) ?_ rfl rfl (by rw [sharedOf_snoc, hb]; exact h.shared)
        (by rw [pairsOf_snoc, hb]; simpa using h.metadata)
      intro p' a pos g b1 _ b2
      rw [hb] at b1; cases b1
      rw [hgl] at b2; cases b2
    rename_i pos g hgl
    split at e
    · rename_i hp
      simp only [Prod.mk.injEq, and_true] at e
      subst e
      refine h.other (by simp [hb]) (by simp [hb]) ?_ rfl rfl (by rw [sharedOf_snoc, hb]; exact h.shared)
        (by rw [pairsOf_snoc, hb]; simpa using h.metadata)
      intro p' a pos g b1 b2 _
      rw [hb] at b1; cases b1
      rw [hp] at b2; cases b2
    rename_i a hp
    split at e
    · simp at e
    split at e
    · simp at e
    · simp at e
    rename_i h' hl
    simp only [Prod.mk.injEq, and_true] at e
    subst e
    have hnd := hG _ _ _ hgl
    obtain ⟨a1, a2⟩ := propLoop_get _ _ _ _ hl hnd
    have hkeys : h'.map Prod.fst = st.heap.map Prod.fst :=
      (propLoop_ok (ks := st.heap.map Prod.fst) (fun i x hx => propValue_refs hx) _ _ _ _ hl).1
    have hd : declared (pre ++ [c]) = declared pre := by rw [declared_snoc, hb]; simp [Body.ids]
    have hli : linksOf (pre ++ [c]) = linksOf pre := by rw [linksOf_snoc]; simp [linksOfChunk, hb]
    have cases_ : ∀ id inst, h'.get? id = some inst → (id ∉ g.ids ∧ st.heap.get? id = some inst) ∨
        ∃ (i : Nat) (v : Value Id) (old : Inst Id), g.ids[i]? = some id ∧
          Reads quat (declared pre) (sharedOf pre) a i v ∧ st.heap.get? id = some old ∧
          inst = { old with properties := old.properties.set p.name v } := by
      intro id inst hgi
      by_cases hid : id ∈ g.ids
      · obtain ⟨i, hi⟩ := List.getElem?_of_mem hid
        obtain ⟨v, old, b1, b2, b3⟩ := a1 i id hi
        rw [b3] at hgi
        simp only [Option.some.injEq] at hgi
        rw [Nat.zero_add, propValue_iff, h.keys, h.shared] at b1
        exact .inr ⟨i, v, old, hi, b1, b2, hgi.symm⟩
      · rw [a2 id hid] at hgi
        exact .inl ⟨hid, hgi⟩
    constructor
    · simp only; rw [hkeys, hd]; exact h.keys
    · rw [hd]; exact h.nodup
    · rw [hd]; exact h.range
    · rw [sharedOf_snoc, hb]; exact h.shared
    · rw [pairsOf_snoc, hb]; simpa using h.metadata
    · rw [hli]; exact h.roots
    · intro id inst hgi
      rw [hli]
      rcases cases_ id inst hgi with ⟨-, hgi⟩ | ⟨i, v, old, -, -, ho, rfl⟩
      · exact h.children id inst hgi
      · exact h.children id old ho
    · intro id inst hgi
      have : ∃ old : Inst Id, st.heap.get? id = some old ∧ inst.className = old.className ∧
          inst.reference = old.reference ∧ inst.isService = old.isService := by
        rcases cases_ id inst hgi with ⟨-, hgi⟩ | ⟨i, v, old, -, -, ho, rfl⟩
        · exact ⟨inst, hgi, rfl, rfl, rfl⟩
        · exact ⟨old, ho, rfl, rfl, rfl⟩
      obtain ⟨old, ho, q1, q2, q3⟩ := this
      obtain ⟨ch, hm, x⟩ := h.cls id old ho
      rw [q1, q2, q3]
      exact ⟨ch, by simp [hm], x⟩
    · intro id inst hgi name v
      rcases cases_ id inst hgi with ⟨hid, hgi⟩ | ⟨i, w, old, hi, hr, ho, rfl⟩
      · rw [assigned_same]
        · exact h.props id inst hgi name v
        · intro p' a' pos' g' b1 b2 _ b3
          rw [hb] at b1; cases b1
          rw [hgl] at b3; cases b3
          exact hid
      · by_cases hn : name = p.name
        · subst hn
          rw [assigned_prop hb hp rfl hgl hi hnd]
          simp only [Map.get?_set_self, Option.some.injEq]
          constructor
          · rintro rfl; exact hr
          · intro hr'
            have e1 := propValue_iff.2 (h.keys ▸ hr : Reads quat (st.heap.map Prod.fst) (sharedOf pre) a i w)
            have e2 := propValue_iff.2 (h.keys ▸ hr' : Reads quat (st.heap.map Prod.fst) (sharedOf pre) a i v)
            rw [e1] at e2; cases e2; rfl
        · simp only [Map.get?_set_ne _ _ hn]
          rw [assigned_same]
          · exact h.props id old ho name v
          · intro p' a' pos' g' b1 _ b2
            rw [hb] at b1; cases b1
            exact absurd b2.symm hn
    · intro j cls name a' pos' g' hgv hgl' id hid
      rw [hd]
      rcases gives_snoc.1 hgv with hgv | ⟨rfl, p', b1, b2, b3, b4⟩
      · exact h.known j cls name a' pos' g' hgv hgl' id hid
      · rw [hb] at b1; cases b1
        subst b2
        rw [hgl] at hgl'; cases hgl'
        obtain ⟨i, hi⟩ := List.getElem?_of_mem hid
        obtain ⟨v, old, -, b2, -⟩ := a1 i id hi
        rw [← h.keys]
        exact Map.get?_isSome.1 (by rw [b2]; rfl)
  | parent p =>
    rw [hb] at e
    simp only [codecStep] at e
    split at e
    · simp at e
    split at e
    · simp at e
    obtain ⟨b1, b2, b3, b4, b5⟩ := parentLoop_get ic _ (declared pre) (fun hm => h.range _ hm rfl) _ _ _ _ e h.keys
    have hd : declared (pre ++ [c]) = declared pre := by rw [declared_snoc, hb]; simp [Body.ids]
    have hli : linksOf (pre ++ [c]) = linksOf pre ++ goodLinks (declared pre) (p.children.zip p.parents) := by
      rw [linksOf_snoc]; simp only [linksOfChunk, hb]; rfl
    have same : ∀ id name v, Assigned quat f (pre ++ [c]) id name v ↔ Assigned quat f pre id name v := by
      intro id name v
      apply assigned_same
      intro p a pos g' b1
      rw [hb] at b1; cases b1
    have old : ∀ id inst, st'.heap.get? id = some inst → ∃ o, st.heap.get? id = some o ∧
        inst = { o with children := o.children ++ childrenIn (goodLinks (declared pre) (p.children.zip p.parents)) id } := by
      intro id inst hgi
      have : (st.heap.get? id).isSome := by
        rw [Map.get?_isSome, h.keys, ← b1, ← Map.get?_isSome, hgi]; rfl
      obtain ⟨o, ho⟩ := Option.isSome_iff_exists.1 this
      rw [b5 id o ho] at hgi
      exact ⟨o, ho, by simpa using hgi.symm⟩
    constructor
    · rw [hd]; exact b1
    · rw [hd]; exact h.nodup
    · rw [hd]; exact h.range
    · rw [sharedOf_snoc, hb, b2]; exact h.shared
    · rw [pairsOf_snoc, hb, b3]; simpa using h.metadata
    · rw [hli, kidsIn_append, b4, h.roots]
    · intro id inst hgi
      obtain ⟨o, ho, rfl⟩ := old id inst hgi
      rw [hli, kidsIn_append, ← h.children id o ho]
    · intro id inst hgi
      obtain ⟨o, ho, rfl⟩ := old id inst hgi
      obtain ⟨ch, hm, x⟩ := h.cls id o ho
      exact ⟨ch, by simp [hm], x⟩
    · intro id inst hgi name v
      obtain ⟨o, ho, rfl⟩ := old id inst hgi
      rw [same]
      exact h.props id o ho name v
    · intro j cls name a pos g' hgv hgl id hid
      rw [hd]
      rcases gives_snoc.1 hgv with hgv | ⟨rfl, p, b1, -⟩
      · exact h.known j cls name a pos g' hgv hgl id hid
      · rw [hb] at b1; cases b1
  | metadata vs =>
    rw [hb] at e
    simp only [codecStep, Prod.mk.injEq, and_true] at e
    subst e
    refine h.other (by simp [hb]) (by simp [hb]) (by simp [hb]) rfl rfl (by rw [sharedOf_snoc, hb]; exact h.shared) ?_
    rw [pairsOf_snoc, hb, List.foldl_append, ← h.metadata]
  | shared x =>
    rw [hb] at e
    simp only [codecStep, Prod.mk.injEq, and_true] at e
    subst e
    exact h.other (by simp [hb]) (by simp [hb]) (by simp [hb]) rfl rfl (by rw [sharedOf_snoc, hb])
      (by rw [pairsOf_snoc, hb]; simpa using h.metadata)
  | end_ _ => rw [hb] at e; simp [codecStep] at e
  | unknown _ _ =>
    rw [hb] at e
    simp only [codecStep, Prod.mk.injEq, and_true] at e
    subst e
    exact h.other (by simp [hb]) (by simp [hb]) (by simp [hb]) rfl rfl (by rw [sharedOf_snoc, hb]; exact h.shared)
      (by rw [pairsOf_snoc, hb]; simpa using h.metadata)
  | errored _ _ =>
    rw [hb] at e
    simp only [codecStep, Prod.mk.injEq, and_true] at e
    subst e
    exact h.other (by simp [hb]) (by simp [hb]) (by simp [hb]) rfl rfl (by rw [sharedOf_snoc, hb]; exact h.shared)
      (by rw [pairsOf_snoc, hb]; simpa using h.metadata)

theorem DecInv.loop {quat : Quat} {f : FormatModel} (hG : ∀ k pos g, f.groupLookup.get? k = some (pos, g) → g.ids.Nodup) :
    ∀ (cs : List Chunk) (pre : List Chunk) (ic : Nat) (st st' : DecState) (fl : Flow),
    codecLoop quat f ic cs st = (st', fl) → (fl = .next ∨ fl = .stop) → DecInv quat f pre st →
    DecInv quat f (pre ++ beforeEnd cs) st' := by
  intro cs
  induction cs with
  | nil =>
    intro pre ic st st' fl h _ hi
    simp only [codecLoop, Prod.mk.injEq] at h
    obtain ⟨rfl, _⟩ := h
    simpa [beforeEnd] using hi
  | cons c cs ih =>
    intro pre ic st st' fl h hfl hi
    simp only [codecLoop] at h
    rcases hs : codecStep quat f ic st c.body with ⟨st1, _ | _ | _ | _⟩ <;> simp only [hs] at h
    · have hb : beforeEnd (c :: cs) = c :: beforeEnd cs := by
        cases hbody : c.body <;> simp only [beforeEnd, hbody]
        rw [hbody] at hs; simp [codecStep] at hs
      have := ih (pre ++ [c]) _ _ _ _ h hfl (hi.step hG hs)
      rw [hb]
      simpa using this
    · obtain ⟨rfl, x, hx⟩ := codecStep_stop hs
      simp only [Prod.mk.injEq] at h
      obtain ⟨rfl, _⟩ := h
      have hb : beforeEnd (c :: cs) = [] := by simp [beforeEnd, hx]
      rw [hb]
      simpa using hi
    · simp only [Prod.mk.injEq] at h
      rcases hfl with rfl | rfl <;> simp at h
    · simp only [Prod.mk.injEq] at h
      rcases hfl with rfl | rfl <;> simp at h

theorem DecInv.decode {quat : Quat} {f : FormatModel} (hG : ∀ k pos g, f.groupLookup.get? k = some (pos, g) → g.ids.Nodup)
    {ws h root} (e : codecDecode quat f = (ws, .ok (h, root))) :
    ∃ st, st.heap = h ∧ st.root = root ∧ DecInv quat f (beforeEnd f.chunks) st := by
  simp only [codecDecode] at e
  rcases hl : codecLoop quat f 0 f.chunks {} with ⟨st, fl⟩
  have hfl : fl = .next ∨ fl = .stop := by
    cases fl <;> simp [hl] at e <;> simp
  have hst : st.heap = h ∧ st.root = root := by
    rcases hfl with rfl | rfl <;> simp [hl] at e <;> exact e.2
  exact ⟨st, hst.1, hst.2, by simpa using DecInv.loop hG f.chunks [] 0 {} st fl hl hfl (DecInv.start quat f)⟩

end Rbxl

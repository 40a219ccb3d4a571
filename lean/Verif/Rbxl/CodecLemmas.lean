import Verif.Rbxl.CodecDecode
import Verif.Rbxl.ModelLemmas
/-!
# Invariants of the codec
-/
namespace Rbxfile

/-- The instances a value refers to. -/
def Value.refs {ρ : Type} : Value ρ → List ρ
  | .reference (some r) => [r]
  | .optional _ (some v) => v.refs
  | _ => []

end Rbxfile

namespace Rbxl
open Go Rbxfile

/-- `0 ≤ x < n` for a signed id and an unsigned bound. -/
def InRange (x : Id) (n : BitVec 32) : Prop := 0 ≤ x.toInt ∧ x.toInt < n.toNat

theorem outOfBounds_eq_false {x : Id} {n : BitVec 32} : outOfBounds x n = false ↔ InRange x n := by
  have h1 := x.isLt; have h2 := n.isLt
  simp only [outOfBounds, Bool.or_eq_false_iff, decide_eq_false_iff_not, InRange,
    BitVec.msb_eq_decide, BitVec.toInt_eq_toNat_cond]
  constructor
  · rintro ⟨h3, h4⟩
    rw [if_pos (by omega)]; omega
  · intro h
    split at h <;> omega

/-- The instances declared by a chunk. -/
def Body.ids : Body → List Id
  | .inst c => c.ids
  | _ => []

/-- Every pointer in the tree points to one of the instances `ids`. -/
structure Closed (h : Heap Id) (root : Root Id) (ids : List Id) : Prop where
  roots : ∀ r ∈ root.instances, r ∈ ids
  children : ∀ e ∈ h, ∀ c ∈ e.2.children, c ∈ ids
  refs : ∀ e ∈ h, ∀ p ∈ e.2.properties, ∀ r ∈ p.2.refs, r ∈ ids

theorem Map.mem_set {κ ν : Type} [DecidableEq κ] {g : Map κ ν} {c : κ} {v : ν} {e : κ × ν}
    (h : e ∈ g.set c v) : e ∈ g ∨ e = (c, v) := by
  induction g with
  | nil => simp [Map.set] at h; exact .inr h
  | cons a g ih =>
    obtain ⟨k, x⟩ := a
    simp only [Map.set] at h
    split at h
    · rcases List.mem_cons.1 h with h | h
      · exact .inr h
      · exact .inl (List.mem_cons_of_mem _ h)
    · rcases List.mem_cons.1 h with h | h
      · exact .inl (by rw [h]; simp)
      · rcases ih h with h | h
        · exact .inl (List.mem_cons_of_mem _ h)
        · exact .inr h

theorem Map.fst_set_of_mem {κ ν : Type} [DecidableEq κ] {g : Map κ ν} {c : κ} {v w : ν}
    (h : g.get? c = some w) : (g.set c v).map Prod.fst = g.map Prod.fst := by
  rw [Map.map_fst_set, if_pos]
  exact Map.get?_isSome.1 (by rw [h]; rfl)

theorem Map.fst_set_of_not_mem {κ ν : Type} [DecidableEq κ] {g : Map κ ν} {c : κ} {v : ν}
    (h : g.get? c = none) : (g.set c v).map Prod.fst = g.map Prod.fst ++ [c] := by
  rw [Map.map_fst_set, if_neg (Map.get?_eq_none.1 h)]

theorem Closed.mono {h : Heap Id} {root ids ids'} (hc : Closed h root ids) (hs : ∀ x ∈ ids, x ∈ ids') :
    Closed h root ids' :=
  ⟨fun r hr => hs _ (hc.roots r hr), fun e he c hcc => hs _ (hc.children e he c hcc),
    fun e he p hp r hr => hs _ (hc.refs e he p hp r hr)⟩

theorem instLoop_ok (c : InstChunk) (n : BitVec 32) : ∀ (refs : List Id) (i : Nat) (h h' : Heap Id),
    instLoop c n i refs h = .ok h' → (h.map Prod.fst).Nodup →
    h'.map Prod.fst = h.map Prod.fst ++ refs ∧ (h'.map Prod.fst).Nodup ∧
    (∀ x ∈ refs, InRange x n) ∧
    (∀ root ids, Closed h root ids → Closed h' root ids) ∧
    ∀ e ∈ h', e ∈ h ∨ (e.1 ∈ refs ∧ e.2.children = [] ∧ e.2.properties = [] ∧
      e.2.className = c.className) := by
  intro refs
  induction refs with
  | nil =>
    intro i h h' hh hn
    simp [instLoop] at hh; subst hh
    exact ⟨by simp, hn, by simp, fun _ _ h => h, fun e he => .inl he⟩
  | cons ref refs ih =>
    intro i h h' hh hn
    have key : ∀ s : Bool, (h.get? ref).isSome = false → outOfBounds ref n = false →
        instLoop c n (i + 1) refs (h.set ref { className := c.className, isService := s }) = .ok h' →
        h'.map Prod.fst = h.map Prod.fst ++ ref :: refs ∧ (h'.map Prod.fst).Nodup ∧
        (∀ x ∈ ref :: refs, InRange x n) ∧
        (∀ root ids, Closed h root ids → Closed h' root ids) ∧
        ∀ e ∈ h', e ∈ h ∨ (e.1 ∈ ref :: refs ∧ e.2.children = [] ∧ e.2.properties = [] ∧
          e.2.className = c.className) := by
      intro s hs ho hl
      have hnone : h.get? ref = none := by
        cases hg : h.get? ref <;> simp [hg] at hs ⊢
      have hfst := Map.fst_set_of_not_mem (v := ({ className := c.className, isService := s } : Inst Id)) hnone
      have hn' : ((h.set ref ({ className := c.className, isService := s } : Inst Id)).map Prod.fst).Nodup :=
        Map.ok_set hn _ _
      obtain ⟨g1, g2, g3, g4, g5⟩ := ih _ _ _ hl hn'
      refine ⟨?_, g2, ?_, ?_, ?_⟩
      · rw [g1, hfst]; simp
      · intro x hx
        rcases List.mem_cons.1 hx with rfl | hx
        · exact outOfBounds_eq_false.1 ho
        · exact g3 x hx
      · intro root ids hc
        apply g4
        refine ⟨hc.roots, ?_, ?_⟩
        · intro e he c hcc
          rcases Map.mem_set he with he | rfl
          · exact hc.children e he c hcc
          · simp at hcc
        · intro e he p hp
          rcases Map.mem_set he with he | rfl
          · exact hc.refs e he p hp
          · simp at hp
      · intro e he
        rcases g5 e he with he | ⟨he, h1⟩
        · rcases Map.mem_set he with he | rfl
          · exact .inl he
          · exact .inr ⟨by simp, rfl, rfl, rfl⟩
        · exact .inr ⟨by simp [he], h1⟩
    simp only [instLoop] at hh
    split at hh
    · cases hh
    rename_i ho
    split at hh
    · cases hh
    rename_i hs
    simp only [Bool.not_eq_true] at ho hs
    split at hh
    · split at hh
      · cases hh
      · exact key _ hs ho hh
    · exact key false hs ho hh

theorem lookupRef_some {h : Heap Id} {x r : Id} (e : lookupRef h x = some r) :
    r ∈ h.map Prod.fst := by
  simp only [lookupRef] at e
  split at e
  · cases e; exact Map.get?_isSome.1 (by assumption)
  · cases e

theorem decodeValue_refs {quat : Quat} {v : Val} {x : Value Id} (h : decodeValue quat v = some x) :
    x.refs = [] := by
  cases v <;> simp only [decodeValue, Option.some.injEq, reduceCtorEq] at h <;> subst h <;> rfl

theorem propValue_refs {quat : Quat} {h : Heap Id} {shared a i x}
    (hx : propValue quat h shared a i = .ok x) : ∀ r ∈ x.refs, r ∈ h.map Prod.fst := by
  intro r hr
  unfold propValue at hx
  split at hx
  · split at hx
    · cases hx
      rename_i v hv
      cases hl : lookupRef h v.refNum with
      | none => rw [hl] at hr; simp [Value.refs] at hr
      | some y =>
        rw [hl] at hr
        simp [Value.refs] at hr; subst hr
        exact lookupRef_some hl
    · cases hx
  · split at hx
    · split at hx <;> cases hx <;> simp [Value.refs] at hr
    · cases hx
  · split at hx
    · split at hx
      · cases hx
        rename_i hd
        rw [decodeValue_refs hd] at hr; simp at hr
      · cases hx
    · cases hx
  · cases hx
  · split at hx
    · cases hx
    · simp only [Res.bind_eq_ok] at hx
      obtain ⟨o, ho, hx⟩ := hx
      split at hx
      · split at hx
        · cases hx
          rename_i hd
          simp only [Value.refs] at hr
          rw [decodeValue_refs hd] at hr; simp at hr
        · cases hx
      · cases hx
    · cases hx; simp [Value.refs] at hr

theorem propLoop_ok {value : Nat → Res (Value Id)} {name : Bytes} {ks : List Id}
    (hv : ∀ i x, value i = .ok x → ∀ r ∈ x.refs, r ∈ ks) :
    ∀ (ids : List Id) (k : Nat) (h h' : Heap Id), propLoop value name k ids h = .ok h' →
    h'.map Prod.fst = h.map Prod.fst ∧
    ∀ root, Closed h root ks → Closed h' root ks := by
  intro ids
  induction ids with
  | nil => intro k h h' hh; simp [propLoop] at hh; subst hh; exact ⟨rfl, fun _ h => h⟩
  | cons id ids ih =>
    intro k h h' hh
    simp only [propLoop] at hh
    split at hh
    · cases hh
    · cases hh
    rename_i v hval
    split at hh
    · cases hh
    rename_i inst hg
    obtain ⟨g1, g2⟩ := ih _ _ _ hh
    refine ⟨by rw [g1, Map.fst_set_of_mem hg], ?_⟩
    intro root hc
    apply g2
    have hmem := Map.mem_of_get? hg
    refine ⟨hc.roots, ?_, ?_⟩
    · intro e he c hcc
      rcases Map.mem_set he with he | rfl
      · exact hc.children e he c hcc
      · exact hc.children _ hmem c hcc
    · intro e he p hp
      rcases Map.mem_set he with he | rfl
      · exact hc.refs e he p hp
      · rcases Map.mem_set hp with hp | rfl
        · exact hc.refs _ hmem p hp
        · exact hv _ _ hval

theorem parentLoop_ok (ic : Nat) (n : BitVec 32) : ∀ (ps : List (Id × Id)) (i : Nat)
    (st st' : DecState), parentLoop ic n i ps st = (st', .next) →
    st'.heap.map Prod.fst = st.heap.map Prod.fst ∧ st'.shared = st.shared ∧
    (∀ x ∈ ps.map Prod.fst, InRange x n) ∧
    ∀ ks, (∀ x ∈ st.heap.map Prod.fst, x ∈ ks) → Closed st.heap st.root ks → Closed st'.heap st'.root ks := by
  intro ps
  induction ps with
  | nil => intro i st st' h; simp [parentLoop] at h; subst h; exact ⟨rfl, rfl, by simp, fun _ _ h => h⟩
  | cons p ps ih =>
    intro i st st' h
    obtain ⟨child, parent⟩ := p
    simp only [parentLoop] at h
    split at h
    · simp at h
    rename_i ho
    simp only [Bool.not_eq_true] at ho
    have hr := outOfBounds_eq_false.1 ho
    have fin : ∀ st1 : DecState, parentLoop ic n (i + 1) ps st1 = (st', .next) →
        st1.heap.map Prod.fst = st.heap.map Prod.fst → st1.shared = st.shared →
        (∀ ks, (∀ x ∈ st.heap.map Prod.fst, x ∈ ks) → Closed st.heap st.root ks →
          Closed st1.heap st1.root ks) →
        st'.heap.map Prod.fst = st.heap.map Prod.fst ∧ st'.shared = st.shared ∧
        (∀ x ∈ ((child, parent) :: ps).map Prod.fst, InRange x n) ∧
        ∀ ks, (∀ x ∈ st.heap.map Prod.fst, x ∈ ks) → Closed st.heap st.root ks →
          Closed st'.heap st'.root ks := by
      intro st1 h1 e1 e2 e3
      obtain ⟨g1, g2, g3, g4⟩ := ih _ _ _ h1
      refine ⟨g1.trans e1, g2.trans e2, ?_, ?_⟩
      · intro x hx
        simp only [List.map_cons, List.mem_cons] at hx
        rcases hx with rfl | hx
        · exact hr
        · exact g3 x hx
      · intro ks hk hc
        exact g4 ks (by rw [e1]; exact hk) (e3 ks hk hc)
    split at h
    · exact fin _ h rfl rfl (fun _ _ h => h)
    rename_i hch
    have hmem : child ∈ st.heap.map Prod.fst := by
      apply Map.get?_isSome.1
      cases hg : st.heap.get? child <;> simp [hg] at hch ⊢
    split at h
    · refine fin _ h rfl rfl (fun ks hk hc => ⟨?_, hc.children, hc.refs⟩)
      intro r hr
      simp only [List.mem_append, List.mem_singleton] at hr
      rcases hr with hr | rfl
      · exact hc.roots r hr
      · exact hk _ hmem
    · split at h
      · exact fin _ h rfl rfl (fun _ _ h => h)
      · rename_i inst hg
        refine fin _ h (Map.fst_set_of_mem hg) rfl (fun ks hk hc => ⟨hc.roots, ?_, ?_⟩)
        · intro e he c hcc
          rcases Map.mem_set he with he | rfl
          · exact hc.children e he c hcc
          · simp only [List.mem_append, List.mem_singleton] at hcc
            rcases hcc with hcc | rfl
            · exact hc.children _ (Map.mem_of_get? hg) c hcc
            · exact hk _ hmem
        · intro e he p hp
          rcases Map.mem_set he with he | rfl
          · exact hc.refs e he p hp
          · exact hc.refs _ (Map.mem_of_get? hg) p hp

/-- What the codec has verified about a chunk at position `j`. -/
def Checked (f : FormatModel) (j : Nat) : Body → Prop
  | .inst c => InRange c.classID f.classCount ∧ (c.isService = true → c.getService.length = c.ids.length) ∧
      (∀ x ∈ c.ids, InRange x f.instanceCount) ∧
      ∃ g, f.groupLookup.get? c.classID = some (j, g)
  | .prop c => InRange c.classID f.classCount ∧
      ∀ i inst a, f.groupLookup.get? c.classID = some (i, inst) → c.props = some a →
        a.len = inst.ids.length
  | .parent c => c.version = 0 ∧ c.parents.length = c.children.length ∧
      ∀ x ∈ c.children, InRange x f.instanceCount
  | _ => True

theorem codecStep_ok {quat : Quat} {f : FormatModel} {ic : Nat} {st st' : DecState} {b : Body}
    (h : codecStep quat f ic st b = (st', .next)) (hn : (st.heap.map Prod.fst).Nodup) :
    Checked f ic b ∧ st'.heap.map Prod.fst = st.heap.map Prod.fst ++ b.ids ∧
    (st'.heap.map Prod.fst).Nodup ∧
    (Closed st.heap st.root (st.heap.map Prod.fst) →
      Closed st'.heap st'.root (st'.heap.map Prod.fst)) := by
  cases b with
  | inst c =>
    simp only [codecStep] at h
    split at h
    · simp at h
    rename_i ho
    split at h
    · simp at h
    rename_i hsv
    split at h
    · simp at h
    · simp at h
    rename_i h2 hl
    split at h
    · simp at h
    rename_i hg
    simp only [Prod.mk.injEq, and_true] at h
    subst h
    obtain ⟨g1, g2, g3, g4, g5⟩ := instLoop_ok c _ _ _ _ _ hl hn
    simp only [Bool.not_eq_true] at ho
    refine ⟨⟨outOfBounds_eq_false.1 ho, ?_, g3, ?_⟩, g1, g2, ?_⟩
    · intro hs
      simp [hs] at hsv; exact hsv.symm
    · simp only [ne_eq, Decidable.not_not] at hg
      cases hgl : f.groupLookup.get? c.classID with
      | none => simp [hgl] at hg
      | some g => obtain ⟨i, g⟩ := g; simp [hgl] at hg; subst hg; exact ⟨g, rfl⟩
    · intro hc
      apply g4
      exact hc.mono (fun x hx => by rw [g1]; simp [hx])
  | prop c =>
    simp only [codecStep] at h
    split at h
    · simp at h
    rename_i ho
    simp only [Bool.not_eq_true] at ho
    have hr := outOfBounds_eq_false.1 ho
    split at h
    · rename_i hgl
      simp only [Prod.mk.injEq, and_true] at h; subst h
      exact ⟨⟨hr, by simp [hgl]⟩, by simp [Body.ids], hn, fun h => h⟩
    rename_i i inst hgl
    split at h
    · rename_i hp
      simp only [Prod.mk.injEq, and_true] at h; subst h
      exact ⟨⟨hr, by simp [hp]⟩, by simp [Body.ids], hn, fun h => h⟩
    rename_i a hp
    split at h
    · simp at h
    rename_i hlen
    split at h
    · simp at h
    · simp at h
    rename_i h2 hl
    simp only [Prod.mk.injEq, and_true] at h; subst h
    obtain ⟨g1, g2⟩ := propLoop_ok (ks := st.heap.map Prod.fst)
      (fun i x hx => propValue_refs hx) _ _ _ _ hl
    simp only [ne_eq, Decidable.not_not] at hlen
    refine ⟨⟨hr, ?_⟩, by simp [Body.ids, g1], by simpa only [g1] using hn, ?_⟩
    · intro i' inst' a' e1 e2
      rw [hgl] at e1; cases e1; rw [hp] at e2; cases e2
      exact hlen
    · intro hc
      simp only [g1]
      exact g2 _ hc
  | parent c =>
    simp only [codecStep] at h
    split at h
    · simp at h
    rename_i hv
    split at h
    · simp at h
    rename_i hlen
    simp only [ne_eq, Decidable.not_not] at hlen hv
    obtain ⟨g1, _, g3, g4⟩ := parentLoop_ok ic _ _ _ _ _ h
    refine ⟨⟨hv, hlen, ?_⟩, by simp [Body.ids, g1], by rw [g1]; exact hn, ?_⟩
    · intro x hx
      apply g3
      rw [List.map_fst_zip (by omega)]
      exact hx
    · intro hc
      rw [g1]
      exact g4 _ (fun x hx => hx) hc
  | metadata vs =>
    simp only [codecStep, Prod.mk.injEq, and_true] at h; subst h
    exact ⟨trivial, by simp [Body.ids], hn, fun h => ⟨h.roots, h.children, h.refs⟩⟩
  | shared c =>
    simp only [codecStep, Prod.mk.injEq, and_true] at h; subst h
    exact ⟨trivial, by simp [Body.ids], hn, fun h => ⟨h.roots, h.children, h.refs⟩⟩
  | end_ c => simp [codecStep] at h
  | unknown s p =>
    simp only [codecStep, Prod.mk.injEq, and_true] at h; subst h
    exact ⟨trivial, by simp [Body.ids], hn, fun h => h⟩
  | errored s p =>
    simp only [codecStep, Prod.mk.injEq, and_true] at h; subst h
    exact ⟨trivial, by simp [Body.ids], hn, fun h => h⟩

theorem codecStep_stop {quat : Quat} {f : FormatModel} {ic : Nat} {st st' : DecState} {b : Body}
    (h : codecStep quat f ic st b = (st', .stop)) : st' = st ∧ ∃ c, b = .end_ c := by
  cases b with
  | end_ c => simp only [codecStep, Prod.mk.injEq, and_true] at h; exact ⟨h.symm, c, rfl⟩
  | inst c =>
    simp only [codecStep] at h
    split at h
    · simp at h
    split at h
    · simp at h
    split at h
    · simp at h
    · simp at h
    split at h <;> simp at h
  | prop c =>
    simp only [codecStep] at h
    split at h
    · simp at h
    split at h
    · simp at h
    split at h
    · simp at h
    split at h
    · simp at h
    split at h <;> simp at h
  | parent c =>
    simp only [codecStep] at h
    split at h
    · simp at h
    split at h
    · simp at h
    exfalso
    have : ∀ (ps : List (Id × Id)) (i : Nat) (st st' : DecState),
        parentLoop ic f.instanceCount i ps st ≠ (st', .stop) := by
      intro ps
      induction ps with
      | nil => intro i st st' h; simp [parentLoop] at h
      | cons p ps ih =>
        intro i st st'
        obtain ⟨c, p⟩ := p
        simp only [parentLoop]
        (repeat' split) <;> first | exact ih _ _ _ | simp
    exact this _ _ _ _ h
  | metadata _ => simp [codecStep] at h
  | shared _ => simp [codecStep] at h
  | unknown _ _ => simp [codecStep] at h
  | errored _ _ => simp [codecStep] at h

/-- The chunks the codec looks at: those before the first END chunk. -/
def beforeEnd : List Chunk → List Chunk
  | [] => []
  | c :: cs => match c.body with
    | .end_ _ => []
    | _ => c :: beforeEnd cs

theorem codecLoop_ok {quat : Quat} {f : FormatModel} : ∀ (cs : List Chunk) (ic : Nat)
    (st st' : DecState) (fl : Flow), codecLoop quat f ic cs st = (st', fl) →
    (fl = .next ∨ fl = .stop) → (st.heap.map Prod.fst).Nodup →
    Closed st.heap st.root (st.heap.map Prod.fst) →
    (∀ j c, (beforeEnd cs)[j]? = some c → Checked f (ic + j) c.body) ∧
    st'.heap.map Prod.fst = st.heap.map Prod.fst ++ (beforeEnd cs).flatMap (fun c => c.body.ids) ∧
    (st'.heap.map Prod.fst).Nodup ∧ Closed st'.heap st'.root (st'.heap.map Prod.fst) := by
  intro cs
  induction cs with
  | nil =>
    intro ic st st' fl h _ hn hc
    simp only [codecLoop, Prod.mk.injEq] at h
    obtain ⟨rfl, _⟩ := h
    exact ⟨by simp [beforeEnd], by simp [beforeEnd], hn, hc⟩
  | cons c cs ih =>
    intro ic st st' fl h hfl hn hc
    simp only [codecLoop] at h
    rcases hs : codecStep quat f ic st c.body with ⟨st1, _ | _ | _ | _⟩ <;> simp only [hs] at h
    · obtain ⟨g1, g2, g3, g4⟩ := codecStep_ok hs hn
      obtain ⟨i1, i2, i3, i4⟩ := ih _ _ _ _ h hfl g3 (g4 hc)
      have hb : beforeEnd (c :: cs) = c :: beforeEnd cs := by
        cases hbody : c.body <;> simp only [beforeEnd, hbody]
        rw [hbody] at hs; simp [codecStep] at hs
      rw [hb]
      refine ⟨?_, ?_, i3, i4⟩
      · intro j c' hj
        cases j with
        | zero => simp at hj; subst hj; exact g1
        | succ j =>
          simp at hj
          have := i1 j c' hj
          rwa [show ic + 1 + j = ic + (j + 1) by omega] at this
      · rw [i2, g2]; simp
    · obtain ⟨rfl, x, hx⟩ := codecStep_stop hs
      simp only [Prod.mk.injEq] at h
      obtain ⟨rfl, _⟩ := h
      have hb : beforeEnd (c :: cs) = [] := by simp [beforeEnd, hx]
      rw [hb]
      exact ⟨by simp, by simp, hn, hc⟩
    · simp only [Prod.mk.injEq] at h
      rcases hfl with rfl | rfl <;> simp at h
    · simp only [Prod.mk.injEq] at h
      rcases hfl with rfl | rfl <;> simp at h

theorem codecDecode_ok {quat : Quat} {f : FormatModel} {h root ws}
    (e : codecDecode quat f = (ws, .ok (h, root))) :
    (∀ j c, (beforeEnd f.chunks)[j]? = some c → Checked f j c.body) ∧
    h.map Prod.fst = (beforeEnd f.chunks).flatMap (fun c => c.body.ids) ∧
    (h.map Prod.fst).Nodup ∧ Closed h root (h.map Prod.fst) := by
  simp only [codecDecode] at e
  rcases hl : codecLoop quat f 0 f.chunks {} with ⟨st, fl⟩
  have hfl : fl = .next ∨ fl = .stop := by
    cases fl <;> simp [hl] at e <;> simp
  have hst : st.heap = h ∧ st.root = root := by
    rcases hfl with rfl | rfl <;> simp [hl] at e <;> exact e.2
  obtain ⟨rfl, rfl⟩ := hst
  have := codecLoop_ok f.chunks 0 {} st fl hl hfl (by simp) ⟨by simp, by simp, by simp⟩
  simpa using this

end Rbxl

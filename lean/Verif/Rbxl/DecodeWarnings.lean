import Verif.Spec.DecodeWarnings
import Verif.Rbxl.DecodeGroups
/-!
# The warnings of the decoder
-/
namespace Rbxl
open Go Rbxfile Spec

/-! ## The codec -/

/-- The warnings on entries of a PRNT chunk, from position `i` on. -/
def missFrom (known : List Id) (ic : Nat) (i : Nat) (children : List Id) : List CodecWarn :=
  ((children.zipIdx i).filter fun e => decide (e.1 ∉ known)).map fun e => .childMissing ic e.2

theorem parentLoop_warns (ic : Nat) (n : BitVec 32) (known : List Id) : ∀ (ps : List (Id × Id)) (i : Nat) (st st' : DecState) (fl : Flow),
    parentLoop ic n i ps st = (st', fl) → st.heap.map Prod.fst = known →
    ∃ ws, st'.warns = st.warns ++ ws ∧ ws <+: missFrom known ic i (ps.map Prod.fst) ∧
      (fl = .next → ws = missFrom known ic i (ps.map Prod.fst)) := by
  intro ps
  induction ps with
  | nil =>
    intro i st st' fl h _
    simp only [parentLoop, Prod.mk.injEq] at h
    obtain ⟨rfl, rfl⟩ := h
    exact ⟨[], by simp, by simp, fun _ => rfl⟩
  | cons p ps ih =>
    obtain ⟨child, parent⟩ := p
    intro i st st' fl h hk
    have mem : (st.heap.get? child).isSome ↔ child ∈ known := by rw [← hk]; exact Map.get?_isSome
    simp only [parentLoop] at h
    split at h
    · simp only [Prod.mk.injEq] at h
      obtain ⟨rfl, rfl⟩ := h
      exact ⟨[], by simp, List.nil_prefix, nofun⟩
    split at h
    · rename_i hn
      have hn' : child ∉ known := by
        intro hm
        rw [← mem] at hm
        rw [Option.isNone_iff_eq_none] at hn
        rw [hn] at hm
        cases hm
      obtain ⟨ws, h1, h2, h3⟩ := ih _ _ _ _ h hk
      have e : missFrom known ic i (((child, parent) :: ps).map Prod.fst) = .childMissing ic i :: missFrom known ic (i + 1) (ps.map Prod.fst) := by
        simp [missFrom, List.zipIdx_cons, hn']
      rw [e]
      refine ⟨.childMissing ic i :: ws, by rw [h1]; simp, ?_, fun h => by rw [h3 h]⟩
      exact (List.prefix_cons_inj _).2 h2
    · rename_i hn
      have hn' : child ∈ known := by
        rw [← mem]
        revert hn
        cases st.heap.get? child <;> simp
      have e : missFrom known ic i (((child, parent) :: ps).map Prod.fst) = missFrom known ic (i + 1) (ps.map Prod.fst) := by
        simp [missFrom, List.zipIdx_cons, hn']
      rw [e]
      split at h
      · have := ih _ _ _ _ h hk
        exact this
      split at h
      · exact ih _ _ _ _ h hk
      · rename_i inst hi
        have := ih _ _ _ _ h
        refine this ?_
        simp only
        rw [← hk]
        rw [Map.map_fst_set, if_pos (Map.get?_isSome.1 (by rw [hi]; rfl))]

/-- The warnings on one chunk. The class of a PROP chunk must be known. -/
theorem codecStep_warns {quat : Quat} {f : FormatModel} {pre : List Chunk} {c : Chunk} {st st' : DecState} {fl : Flow}
    (hp : ∀ p, c.body = .prop p → (f.groupLookup.get? p.classID).isSome) (hk : st.heap.map Prod.fst = declared pre)
    (e : codecStep quat f pre.length st c.body = (st', fl)) :
    ∃ ws, st'.warns = st.warns ++ ws ∧ ws <+: droppedIn (declared pre) pre.length c ∧
      (fl = .next → ws = droppedIn (declared pre) pre.length c) := by
  have none : st'.warns = st.warns → (fl = .next → droppedIn (declared pre) pre.length c = []) →
      ∃ ws, st'.warns = st.warns ++ ws ∧ ws <+: droppedIn (declared pre) pre.length c ∧
        (fl = .next → ws = droppedIn (declared pre) pre.length c) :=
    fun h1 h2 => ⟨[], by simpa using h1, List.nil_prefix, fun h => (h2 h).symm⟩
  unfold droppedIn at *
  cases hb : c.body with
  | inst g =>
    rw [hb] at e none
    refine none ?_ fun _ => rfl
    simp only [codecStep] at e
    repeat' split at e
    all_goals (cases e; rfl)
  | prop p =>
    rw [hb] at e none
    simp only at none ⊢
    simp only [codecStep] at e
    split at e
    · cases e
      exact none rfl nofun
    have hp := hp p hb
    split at e
    · rename_i hn
      rw [hn] at hp
      cases hp
    split at e
    · rename_i hn
      cases e
      exact ⟨[.noValueType pre.length], rfl, by rw [if_pos hn]; exact List.prefix_rfl, fun _ => by rw [if_pos hn]⟩
    · rename_i a ha
      have hne : ¬ p.props = .none := by rw [ha]; nofun
      refine none ?_ fun _ => by rw [if_neg hne]
      repeat' split at e
      all_goals (cases e; rfl)
  | parent p =>
    rw [hb] at e none
    simp only at none ⊢
    simp only [codecStep] at e
    split at e
    · cases e
      exact none rfl nofun
    split at e
    · cases e
      exact none rfl nofun
    rename_i hl
    have hl : p.parents.length = p.children.length := by simpa using hl
    obtain ⟨ws, h1, h2, h3⟩ := parentLoop_warns _ _ _ _ _ _ _ _ e hk
    have hz : (p.children.zip p.parents).map Prod.fst = p.children := by
      rw [List.map_fst_zip (by omega)]
    rw [hz] at h2 h3
    exact ⟨ws, h1, h2, h3⟩
  | metadata vs => rw [hb] at e none; cases e; exact none rfl fun _ => rfl
  | shared x => rw [hb] at e none; cases e; exact none rfl fun _ => rfl
  | end_ x => rw [hb] at e none; cases e; exact none rfl fun _ => rfl
  | unknown x y => rw [hb] at e none; cases e; exact none rfl fun _ => rfl
  | errored x y => rw [hb] at e none; cases e; exact none rfl fun _ => rfl

theorem dropped_snoc (pre : List Chunk) (c : Chunk) :
    dropped (pre ++ [c]) = dropped pre ++ droppedIn (declared pre) pre.length c := by
  simp only [dropped, List.length_append, List.length_singleton, List.range_succ, List.flatMap_append,
    List.flatMap_cons, List.flatMap_nil, List.append_nil]
  congr 1
  · rw [List.flatMap_def, List.flatMap_def]
    congr 1
    apply List.map_congr_left
    intro j hj
    have hj := List.mem_range.1 hj
    rw [List.getElem?_append_left hj, List.take_append_of_le_length (by omega)]
  · simp

theorem dropped_prefix (pre : List Chunk) : ∀ post, dropped pre <+: dropped (pre ++ post) := by
  intro post
  induction post generalizing pre with
  | nil => simp
  | cons c post ih =>
    have := ih (pre ++ [c])
    rw [dropped_snoc, List.append_assoc] at this
    exact (List.prefix_append _ _).trans this

theorem codecLoop_warns {quat : Quat} {f : FormatModel} : ∀ (cs pre : List Chunk) (st st' : DecState) (fl : Flow),
    codecLoop quat f pre.length cs st = (st', fl) → (∀ c ∈ cs, ∀ p, c.body = .prop p → (f.groupLookup.get? p.classID).isSome) →
    st.heap.map Prod.fst = declared pre → (st.heap.map Prod.fst).Nodup → st.warns = dropped pre →
    st'.warns <+: dropped (pre ++ beforeEnd cs) ∧ (fl = .next ∨ fl = .stop → st'.warns = dropped (pre ++ beforeEnd cs)) := by
  intro cs
  induction cs with
  | nil =>
    intro pre st st' fl h _ _ _ hw
    simp only [codecLoop, Prod.mk.injEq] at h
    obtain ⟨rfl, _⟩ := h
    rw [beforeEnd, List.append_nil, hw]
    exact ⟨List.prefix_rfl, fun _ => rfl⟩
  | cons c cs ih =>
    intro pre st st' fl h hp hk hn hw
    simp only [codecLoop] at h
    have hstep := fun st1 fl1 => codecStep_warns (quat := quat) (f := f) (pre := pre) (c := c) (st := st) (st' := st1) (fl := fl1) (hp c (by simp)) hk
    have hb : (∀ x, c.body ≠ .end_ x) → beforeEnd (c :: cs) = c :: beforeEnd cs := by
      intro hc
      cases hbody : c.body <;> simp only [beforeEnd, hbody]
      exact absurd hbody (hc _)
    have he : (∃ x, c.body = .end_ x) → beforeEnd (c :: cs) = [] := by
      rintro ⟨x, hx⟩
      simp [beforeEnd, hx]
    rcases hs : codecStep quat f pre.length st c.body with ⟨st1, _ | _ | _ | _⟩ <;> simp only [hs] at h
    · obtain ⟨-, g2, g3, -⟩ := codecStep_ok hs hn
      have hne : ∀ x, c.body ≠ .end_ x := by
        intro x hx
        rw [hx] at hs
        simp [codecStep] at hs
      obtain ⟨ws, w1, -, w3⟩ := hstep _ _ hs
      rw [hb hne]
      have := ih (pre ++ [c]) st1 st' fl (by simpa using h) (fun c hc => hp c (by simp [hc]))
        (by rw [declared_snoc, g2, hk]) g3 (by rw [dropped_snoc, w1, w3 rfl, hw])
      simpa using this
    · obtain ⟨rfl, hx⟩ := codecStep_stop hs
      simp only [Prod.mk.injEq] at h
      obtain ⟨rfl, _⟩ := h
      rw [he hx, List.append_nil, hw]
      exact ⟨List.prefix_rfl, fun _ => rfl⟩
    all_goals
      simp only [Prod.mk.injEq] at h
      obtain ⟨rfl, rfl⟩ := h
      have hne : ∀ x, c.body ≠ .end_ x := by
        intro x hx
        rw [hx] at hs
        simp [codecStep] at hs
      obtain ⟨ws, w1, w2, -⟩ := hstep _ _ hs
      refine ⟨?_, by rintro (h | h) <;> cases h⟩
      rw [hb hne, w1, hw]
      refine List.IsPrefix.trans ((List.prefix_append_right_inj _).2 w2) ?_
      rw [← dropped_snoc]
      have := dropped_prefix (pre ++ [c]) (beforeEnd cs)
      simpa using this

/-! ## The chunks -/

/-- A decoded PROP chunk has a known class. -/
theorem decodeProp_known {slack : Bytes → Nat} {groups : Map (BitVec 32) (Nat × InstChunk)} {b r : Bytes} {p : PropChunk}
    (e : decodeProp slack groups b = .ok (p, r)) : (groups.get? p.classID).isSome := by
  simp only [decodeProp] at e
  rw [rd_bind] at e
  obtain ⟨⟨id, r1⟩, -, e⟩ := (Res.bind_eq_ok ..).1 e
  simp only at e
  rcases hg : groups.get? id with _ | ⟨i, inst⟩
  · rw [hg] at e; cases e
  rw [hg] at e
  simp only [rd_bind] at e
  obtain ⟨⟨name, r2⟩, -, e⟩ := (Res.bind_eq_ok ..).1 e
  simp only [rd_bind] at e
  obtain ⟨⟨raw, r3⟩, -, e⟩ := (Res.bind_eq_ok ..).1 e
  simp only at e
  split at e
  · cases e; simp [hg]
  · simp only [rd_bind] at e
    obtain ⟨⟨a, r4⟩, -, e⟩ := (Res.bind_eq_ok ..).1 e
    cases e; simp [hg]

/-- What the chunk loop has reported so far. -/
structure WarnsOk (first : List Warn) (st : LoopState) : Prop where
  reports : ∃ wss : List (List Warn), st.warns = first ++ wss.flatten ∧ wss.length = st.chunks.length ∧
    ∀ j c ws, st.chunks[j]? = some c → wss[j]? = some ws → Reports j c ws
  known : ∀ c ∈ st.chunks, ∀ p, c.body = .prop p → (st.groups.get? p.classID).isSome

theorem decodeBody_prop {slack : Bytes → Nat} {groups : Map (BitVec 32) (Nat × InstChunk)} {raw : Raw} {p : PropChunk}
    (e : decodeBody slack groups raw = some (.ok (.prop p))) : (groups.get? p.classID).isSome := by
  have wrong : ∀ {α : Type} {f : Rd α} {k : α → Body}, (∀ a, k a ≠ .prop p) →
      some (do let (a, _) ← f raw.payload; pure (k a)) = some (Res.ok (Body.prop p)) → False := by
    intro α f k hk e
    rw [Option.some.injEq] at e
    obtain ⟨⟨a, r⟩, -, e⟩ := (Res.bind_eq_ok ..).1 e
    exact hk a (Res.ok.inj e)
  simp only [decodeBody] at e
  split at e
  · exact (wrong nofun e).elim
  split at e
  · exact (wrong nofun e).elim
  split at e
  · exact (wrong nofun e).elim
  split at e
  · rw [Option.some.injEq] at e
    obtain ⟨⟨a, r⟩, h1, e⟩ := (Res.bind_eq_ok ..).1 e
    cases e
    exact decodeProp_known h1
  split at e
  · exact (wrong nofun e).elim
  split at e
  · exact (wrong nofun e).elim
  · cases e

theorem decodeBody_known {slack : Bytes → Nat} {groups : Map (BitVec 32) (Nat × InstChunk)} {raw : Raw} (s : BitVec 32) (b : Bytes) :
    decodeBody slack groups raw ≠ some (.ok (.unknown s b)) ∧ decodeBody slack groups raw ≠ some (.ok (.errored s b)) := by
  have wrong : ∀ {α : Type} {f : Rd α} {k : α → Body} {x : Body}, (∀ a, k a ≠ x) →
      some (do let (a, _) ← f raw.payload; pure (k a)) ≠ some (Res.ok x) := by
    intro α f k x hk e
    rw [Option.some.injEq] at e
    obtain ⟨⟨a, r⟩, -, e⟩ := (Res.bind_eq_ok ..).1 e
    exact hk a (Res.ok.inj e)
  simp only [decodeBody]
  repeat' split
  all_goals
    first
    | (constructor
       · exact wrong (fun a h => by cases h)
       · exact wrong (fun a h => by cases h))
    | (constructor <;> intro h <;> cases h)

theorem WarnsOk.push {first : List Warn} {st st' : LoopState} {c : Chunk} {ws : List Warn} (h : WarnsOk first st)
    (h1 : st'.chunks = st.chunks ++ [c]) (h2 : st'.warns = st.warns ++ ws) (h3 : Reports st.chunks.length c ws)
    (h4 : ∀ k, (st.groups.get? k).isSome → (st'.groups.get? k).isSome)
    (h5 : ∀ p, c.body = .prop p → (st'.groups.get? p.classID).isSome) : WarnsOk first st' := by
  obtain ⟨wss, a1, a2, a3⟩ := h.reports
  refine ⟨⟨wss ++ [ws], by rw [h2, a1]; simp, by rw [h1]; simp [a2], ?_⟩, ?_⟩
  · intro j x w hx hw
    rw [h1] at hx
    by_cases hj : j < st.chunks.length
    · rw [List.getElem?_append_left hj] at hx
      rw [List.getElem?_append_left (by omega)] at hw
      exact a3 j x w hx hw
    · rw [List.getElem?_append_right (by omega)] at hx hw
      have hj0 : j = st.chunks.length := by
        by_cases e : j = st.chunks.length
        · exact e
        · rw [List.getElem?_eq_none (by simp; omega)] at hx; cases hx
      subst hj0
      rw [a2] at hw
      simp only [Nat.sub_self, List.getElem?_cons_zero, Option.some.injEq] at hx hw
      subst hx; subst hw
      exact h3
  · intro x hx p hp
    rw [h1] at hx
    rcases List.mem_append.1 hx with hx | hx
    · exact h4 _ (h.known x hx p hp)
    · rw [List.mem_singleton.1 hx] at hp
      exact h5 p hp

theorem stepChunk_warns {first : List Warn} {slack} {st st' : LoopState} {raw : Raw} {fl : Bool} (h : WarnsOk first st)
    (e : stepChunk slack st raw = .ok (st', fl)) : WarnsOk first st' := by
  simp only [stepChunk] at e
  split at e
  · simp only [Res.ok.injEq, Prod.mk.injEq] at e
    obtain ⟨rfl, rfl⟩ := e
    exact h.push rfl rfl rfl (fun _ h => h) nofun
  · cases e
  · simp only [Res.ok.injEq, Prod.mk.injEq] at e
    obtain ⟨rfl, rfl⟩ := e
    exact h.push rfl rfl ⟨_, rfl⟩ (fun _ h => h) nofun
  · rename_i body hb
    simp only [Res.ok.injEq, Prod.mk.injEq] at e
    obtain ⟨rfl, rfl⟩ := e
    refine h.push rfl rfl ?_ ?_ ?_
    · cases body <;> simp only [Reports]
      case unknown => exact absurd hb (decodeBody_known _ _).1
      case errored => exact absurd hb (decodeBody_known _ _).2
      case end_ => rfl
    · intro k hk
      cases body <;> first | exact hk | skip
      simp only [Map.get?_set]
      split
      · rfl
      · exact hk
    · rintro p ⟨⟩
      exact decodeBody_prop hb

theorem decodeChunks_warns {first : List Warn} {lz : LZ4} {slack} : ∀ (fuel : Nat) (st st' : LoopState) (b : Bytes) (r : Res Bytes),
    decodeChunks lz slack fuel st b = (st', r) → WarnsOk first st → WarnsOk first st' := by
  intro fuel
  induction fuel with
  | zero => intro st st' b r e h; cases e; exact h
  | succ fuel ih =>
    intro st st' b r e h
    simp only [decodeChunks] at e
    rcases hd : rawDecode lz b with ⟨raw, rest⟩ | e' | _ <;> simp only [hd] at e
    · rcases hs : stepChunk slack st raw with ⟨st1, _ | _⟩ | e' | _ <;> simp only [hs] at e
      · exact ih _ _ _ _ e (stepChunk_warns h hs)
      · cases e; exact stepChunk_warns h hs
      · cases e; exact h
      · cases e; exact h
    · cases e; exact h
    · cases e; exact h

end Rbxl

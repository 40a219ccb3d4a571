import Verif.Rbxl.EncTree
import Verif.Rbxl.FileLemmas
/-!
# The class chunks of `robloxCodec.Encode` and decoding INST chunks
-/
namespace Rbxl
open Go Rbxfile Spec

variable {ρ : Type} [DecidableEq ρ]

/-- The members of a class, with their positions. -/
def members (xs : List (Inst ρ × Nat)) (cls : Bytes) : List (Inst ρ × Nat) :=
  xs.filter fun x => decide (x.1.className = cls)

/-- The chunk of a class with the given members. -/
def chunkOf (place : Bool) (cls : Bytes) (ys : List (Inst ρ × Nat)) : InstChunk :=
  ⟨0, cls, ys.map fun x => BitVec.ofNat 32 x.2, ys.any fun x => place && x.1.isService,
    ys.map fun x => if place && x.1.isService then 1#8 else 0#8⟩

omit [DecidableEq ρ] in
theorem groupFold (place : Bool) : ∀ (xs done : List (Inst ρ × Nat)) (m : Map Bytes InstChunk),
    m.Ok →
    (∀ cls, m.get? cls = if members done cls = [] then none
      else some (chunkOf place cls (members done cls))) →
    (xs.foldl (groupStep place) m).Ok ∧
    ∀ cls, (xs.foldl (groupStep place) m).get? cls =
      if members (done ++ xs) cls = [] then none
      else some (chunkOf place cls (members (done ++ xs) cls)) := by
  intro xs
  induction xs with
  | nil => intro done m hm h; simpa using ⟨hm, h⟩
  | cons x xs ih =>
    intro done m hm h
    have := ih (done ++ [x]) (groupStep place m x) (Map.ok_set hm _ _) (by
      intro cls
      simp only [groupStep]
      rw [Map.get?_set]
      by_cases e : cls = x.1.className
      · rw [if_pos e]
        have hmem : members (done ++ [x]) cls = members done cls ++ [x] := by
          simp [members, e]
        have hne : ¬ (members done cls ++ [x] = []) := by simp
        have hne' : ¬ ([x] = []) := by simp
        rw [hmem]
        have hg := h x.1.className
        rw [hg]
        rw [← e]
        by_cases h0 : members done cls = [] <;> cases hs : (place && x.1.isService) <;>
          simp only [h0, hne, hne', if_true, if_false, Option.getD, Bool.false_eq_true, chunkOf, hs,
            List.map_append, List.any_append, List.map_cons, List.map_nil, List.any_cons,
            List.any_nil, Bool.or_true, Bool.or_false, List.nil_append]
      · rw [if_neg e, h cls]
        have hmem : members (done ++ [x]) cls = members done cls := by
          simp [members, Ne.symm e]
        rw [hmem])
    simpa using this

omit [DecidableEq ρ] in
theorem groupClasses_spec (place : Bool) (insts : List (Inst ρ)) :
    (groupClasses place insts).Ok ∧ ∀ cls, (groupClasses place insts).get? cls =
      if members insts.zipIdx cls = [] then none
      else some (chunkOf place cls (members insts.zipIdx cls)) := by
  have := groupFold place insts.zipIdx [] [] Map.ok_nil (by simp [members])
  simpa [groupClasses] using this

omit [DecidableEq ρ] in
theorem groupClasses_mem (place : Bool) (insts : List (Inst ρ)) {e : Bytes × InstChunk}
    (h : e ∈ groupClasses place insts) :
    e.2 = chunkOf place e.1 (members insts.zipIdx e.1) ∧ members insts.zipIdx e.1 ≠ [] := by
  obtain ⟨h1, h2⟩ := groupClasses_spec place insts
  have := Map.get?_of_mem h1 (k := e.1) (v := e.2) h
  rw [h2] at this
  split at this
  · cases this
  · rename_i hne
    exact ⟨(Option.some.inj this).symm, hne⟩

omit [DecidableEq ρ] in
/-- The chunks by class name are the values of the grouping map, whatever the iteration order and
sorting algorithm. -/
theorem classList_eq (it : Iter) (srt : Sorter) (place : Bool) (insts : List (Inst ρ)) :
    ∃ names : List Bytes, names.Nodup ∧ names.Pairwise (fun a b => bytesLt a b = true) ∧
      (∀ cls, cls ∈ names ↔ ∃ i ∈ insts, i.className = cls) ∧
      classList it srt place insts = names.zipIdx.map fun c =>
        { chunkOf place c.1 (members insts.zipIdx c.1) with classID := BitVec.ofNat 32 c.2 } := by
  obtain ⟨hok, hget⟩ := groupClasses_spec place insts
  have hcls : ∀ e ∈ groupClasses place insts, e.2.className = e.1 := fun e he => by
    rw [(groupClasses_mem place insts he).1]; rfl
  let vals := srt.run (fun a b => bytesLt a.className b.className)
    (it.run [0] ((groupClasses place insts).map Prod.snd))
  have hperm : vals.Perm ((groupClasses place insts).map Prod.snd) :=
    (srt.perm _ _).trans (it.perm _ _)
  have hsort := srt.sorted _ (it.run [0] ((groupClasses place insts).map Prod.snd))
    (strictWeak_bytes (fun c : InstChunk => c.className))
  have hkeys : ((groupClasses place insts).map Prod.snd).map InstChunk.className =
      (groupClasses place insts).map Prod.fst := by
    rw [List.map_map]
    exact List.map_congr_left hcls
  have hnodup : (vals.map InstChunk.className).Nodup := by
    have := (hperm.map InstChunk.className)
    rw [hkeys] at this
    exact this.nodup_iff.2 hok
  have hvals : ∀ c ∈ vals, c = chunkOf place c.className (members insts.zipIdx c.className) := by
    intro c hc
    obtain ⟨e, he, rfl⟩ := List.mem_map.1 (hperm.mem_iff.1 hc)
    rw [hcls e he]
    exact (groupClasses_mem place insts he).1
  refine ⟨vals.map InstChunk.className, hnodup, ?_, ?_, ?_⟩
  · rw [List.pairwise_map]
    have h2 : vals.Pairwise fun a b => a.className ≠ b.className := by
      have := hnodup
      unfold List.Nodup at this
      rwa [List.pairwise_map] at this
    refine (hsort.and h2).imp ?_
    intro a b ⟨h1, h2⟩
    rcases bytesLt_total h2 with h | h
    · exact h
    · rw [h1] at h; cases h
  · intro cls
    have : cls ∈ vals.map InstChunk.className ↔ cls ∈ (groupClasses place insts).map Prod.fst := by
      have := (hperm.map InstChunk.className)
      rw [hkeys] at this
      exact this.mem_iff
    rw [this, ← Map.get?_isSome, hget]
    constructor
    · intro h
      split at h
      · cases h
      · rename_i hne
        obtain ⟨y, hy⟩ := List.exists_mem_of_ne_nil _ hne
        simp only [members, List.mem_filter, decide_eq_true_eq] at hy
        refine ⟨y.1, ?_, hy.2⟩
        have := List.fst_mem_of_mem_zipIdx hy.1
        exact this
    · rintro ⟨i, hi, rfl⟩
      rw [if_neg]
      · rfl
      · intro h0
        obtain ⟨k, hk⟩ := List.mem_iff_getElem?.1 hi
        have : (i, k) ∈ members insts.zipIdx i.className := by
          simp only [members, List.mem_filter, decide_eq_true_eq, and_true]
          exact List.mk_mem_zipIdx_iff_getElem?.2 hk
        rw [h0] at this
        cases this
  · show (vals.zipIdx).map _ = _
    rw [List.zipIdx_map, List.map_map]
    refine List.map_congr_left ?_
    rintro ⟨c, k⟩ hc
    have := List.fst_mem_of_mem_zipIdx hc
    simp only [Function.comp_apply, Prod.map_apply, id_eq]
    rw [← hvals c this]

/-! ### decoding INST chunks -/

theorem instLoop_good (c : InstChunk) (n : BitVec 32) : ∀ (ids : List Id) (i : Nat) (h : Heap Id),
    (∀ q ∈ ids, outOfBounds q n = false ∧ h.get? q = none) → ids.Nodup →
    (c.isService = true → i + ids.length ≤ c.getService.length) →
    ∃ h', instLoop c n i ids h = .ok h' ∧
      (∀ q, q ∉ ids → h'.get? q = h.get? q) ∧
      ∀ (k : Nat) (q : Id), ids[k]? = some q → h'.get? q = some
        { className := c.className,
          isService := c.isService && (c.getService[i + k]? == some 1#8) } := by
  intro ids
  induction ids with
  | nil => intro i h _ _ _; exact ⟨h, rfl, fun _ _ => rfl, by simp⟩
  | cons r rs ih =>
    intro i h hq hn hs
    obtain ⟨h1, h2⟩ := hq r (by simp)
    obtain ⟨hr, hn'⟩ := List.nodup_cons.1 hn
    rw [instLoop]
    simp only [h1, Bool.false_eq_true, if_false, h2, Option.isSome_none]
    have step : ∀ v : Inst Id,
        v = ⟨c.className, [], c.isService && (c.getService[i]? == some 1#8), [], []⟩ →
        ∃ h', instLoop c n (i + 1) rs (h.set r v) = .ok h' ∧
        (∀ q, q ∉ r :: rs → h'.get? q = h.get? q) ∧
        ∀ (k : Nat) (q : Id), (r :: rs)[k]? = some q → h'.get? q = some
          { className := c.className,
            isService := c.isService && (c.getService[i + k]? == some 1#8) } := by
      intro v hv
      obtain ⟨h', g1, g2, g3⟩ := ih (i + 1) (h.set r v) (by
        intro q hqs
        have := hq q (List.mem_cons_of_mem _ hqs)
        refine ⟨this.1, ?_⟩
        have hne : q ≠ r := by rintro rfl; exact hr hqs
        rw [Map.get?_set_ne _ _ hne]
        exact this.2) hn' (by
        intro h3; have := hs h3; simp only [List.length_cons] at this; omega)
      refine ⟨h', g1, ?_, ?_⟩
      · intro q hqn
        simp only [List.mem_cons, not_or] at hqn
        rw [g2 q hqn.2, Map.get?_set_ne _ _ hqn.1]
      · intro k q hk
        obtain _ | k := k
        · simp only [List.getElem?_cons_zero, Option.some.injEq] at hk
          subst hk
          rw [g2 r hr, Map.get?_set_self, hv]
          rfl
        · simp only [List.getElem?_cons_succ] at hk
          rw [g3 k q hk]
          rw [show i + 1 + k = i + (k + 1) by omega]
    cases hc : c.isService with
    | false =>
      simp only [Bool.false_eq_true, if_false]
      simpa [hc] using step { className := c.className } (by simp [hc])
    | true =>
      simp only [if_true]
      have hlen : i < c.getService.length := by
        have := hs hc; simp only [List.length_cons] at this; omega
      rw [List.getElem?_eq_getElem hlen]
      simp only
      have := step { className := c.className, isService := c.getService[i] == 1#8 } (by
        simp [hc, List.getElem?_eq_getElem hlen])
      simpa [hc] using this

/-- The heap holds the instances of the classes in `done`, without properties and children. -/
def baseInst {ρ : Type} (place : Bool) (insts : List (Inst ρ)) (done : List Bytes) (q : Id) :
    Option (Inst Id) :=
  match insts[q.toNat]? with
  | some i => if i.className ∈ done then
      some { className := i.className, isService := place && i.isService } else none
  | none => none

omit [DecidableEq ρ] in
theorem mem_members {insts : List (Inst ρ)} {cls : Bytes} {x : Inst ρ × Nat} :
    x ∈ members insts.zipIdx cls ↔ insts[x.2]? = some x.1 ∧ x.1.className = cls := by
  simp only [members, List.mem_filter, decide_eq_true_eq]
  rw [show x = (x.1, x.2) from rfl, List.mk_mem_zipIdx_iff_getElem?]

omit [DecidableEq ρ] in
theorem members_nodup (insts : List (Inst ρ)) (cls : Bytes) :
    ((members insts.zipIdx cls).map Prod.snd).Nodup := by
  have : (insts.zipIdx.map Prod.snd).Nodup := by
    rw [List.zipIdx_map_snd]; exact List.nodup_range'
  exact this.sublist (List.Sublist.map _ List.filter_sublist)

omit [DecidableEq ρ] in
theorem ids_nodup {insts : List (Inst ρ)} (hn : insts.length < 2 ^ 31) (cls : Bytes) :
    ((members insts.zipIdx cls).map fun x => BitVec.ofNat 32 x.2).Nodup := by
  have h := members_nodup insts cls
  unfold List.Nodup at h ⊢
  rw [List.pairwise_map] at h ⊢
  refine h.imp_of_mem ?_
  intro a b ha hb hab e
  have ha := (List.getElem?_eq_some_iff.1 (mem_members.1 ha).1).1
  have hb := (List.getElem?_eq_some_iff.1 (mem_members.1 hb).1).1
  exact hab (ofNat_inj (by omega) (by omega) e)

theorem outOfBounds_ofNat {i n : Nat} (hi : i < n) (hn : n < 2 ^ 31) :
    outOfBounds (BitVec.ofNat 32 i) (BitVec.ofNat 32 n) = false := by
  simp only [outOfBounds, Bool.or_eq_false_iff, decide_eq_false_iff_not, Nat.not_le]
  refine ⟨?_, ?_⟩
  · rw [BitVec.msb_eq_decide, decide_eq_false_iff_not]
    simp only [BitVec.toNat_ofNat]; omega
  · simp only [BitVec.toNat_ofNat]; omega

theorem toNat_ofNat_lt {i : Nat} (hi : i < 2 ^ 31) : (BitVec.ofNat 32 i).toNat = i := by
  simp only [BitVec.toNat_ofNat]; omega

theorem codecLoop_next {quat f} : ∀ (as : List Chunk) (ic : Nat) (st st' : DecState) (bs),
    codecLoop quat f ic as st = (st', .next) →
    codecLoop quat f ic (as ++ bs) st = codecLoop quat f (ic + as.length) bs st' := by
  intro as
  induction as with
  | nil => intro ic st st' bs h; simp only [codecLoop] at h; cases h; rfl
  | cons c as ih =>
    intro ic st st' bs h
    rw [codecLoop] at h
    rw [List.cons_append, codecLoop]
    rcases hs : codecStep quat f ic st c.body with ⟨st1, fl⟩
    rw [hs] at h
    cases fl with
    | next =>
      simp only at h ⊢
      rw [ih _ _ _ _ h, List.length_cons]
      congr 1; omega
    | stop => cases h
    | fail e => cases h
    | panic => cases h

omit [DecidableEq ρ] in
/-- The INST chunks of an encoded tree. -/
theorem instPhase (quat : Quat) (f : FormatModel) (place : Bool) (insts : List (Inst ρ))
    (hn : insts.length < 2 ^ 31) (hic : f.instanceCount = BitVec.ofNat 32 insts.length)
    (off N : Nat) (hN : N < 2 ^ 31) (hcc : f.classCount = BitVec.ofNat 32 N) (u : Bool) :
    ∀ (names : List Bytes) (k : Nat) (done : List Bytes) (st : DecState),
    k + names.length ≤ N →
    (∀ c ∈ names.zipIdx k, (f.groupLookup.get? (BitVec.ofNat 32 c.2)).map Prod.fst =
      some (off + c.2)) →
    (done ++ names).Nodup →
    (∀ q, st.heap.get? q = baseInst place insts done q) →
    ∃ h', codecLoop quat f (off + k) ((names.zipIdx k).map fun c => Chunk.back u
        ⟨.inst { chunkOf place c.1 (members insts.zipIdx c.1) with
          classID := BitVec.ofNat 32 c.2 }, true⟩) st = ({ st with heap := h' }, .next) ∧
      ∀ q, h'.get? q = baseInst place insts (done ++ names) q := by
  intro names
  induction names with
  | nil =>
    intro k done st _ _ _ hh
    exact ⟨st.heap, by simp [codecLoop], by simpa using hh⟩
  | cons cls names ih =>
    intro k done st hk hg hd hh
    have hgk := hg (cls, k) (by simp [List.zipIdx_cons])
    simp only at hgk
    rw [List.zipIdx_cons, List.map_cons, codecLoop]
    let c : InstChunk := { chunkOf place cls (members insts.zipIdx cls) with
          classID := BitVec.ofNat 32 k }
    have hcls : cls ∉ done := by
      intro h
      exact (List.nodup_append.1 hd).2.2 cls h cls (by simp) rfl
    have hgl : c.isService = true → c.canon.ids.length = c.canon.getService.length := by
      intro h
      have e1 : c.canon.getService = c.getService := by
        show (if c.isService then c.getService else []) = _
        rw [if_pos h]
      have e2 : c.canon.ids = c.ids := rfl
      rw [e1, e2]
      simp [c, chunkOf]
    have hin : ∀ q ∈ c.canon.ids, ∃ x ∈ members insts.zipIdx cls, q = BitVec.ofNat 32 x.2 := by
      intro q hq
      obtain ⟨x, hx, rfl⟩ := List.mem_map.1 (show q ∈ (members insts.zipIdx cls).map
        fun x => BitVec.ofNat 32 x.2 from hq)
      exact ⟨x, hx, rfl⟩
    obtain ⟨h1, g1, g2, g3⟩ := instLoop_good c.canon f.instanceCount c.canon.ids 0 st.heap (by
        intro q hq
        obtain ⟨x, hx, rfl⟩ := hin q hq
        obtain ⟨hx1, hx2⟩ := mem_members.1 hx
        have hlt := (List.getElem?_eq_some_iff.1 hx1).1
        refine ⟨by rw [hic]; exact outOfBounds_ofNat hlt hn, ?_⟩
        rw [hh, baseInst, toNat_ofNat_lt (by omega), hx1]
        simp only [hx2, if_neg hcls]) (ids_nodup hn cls) (by
        intro hs
        have := hgl hs
        omega)
    have hstep : codecStep quat f (off + k) st (Chunk.back u ⟨.inst c, true⟩).body =
        ({ st with heap := h1 }, .next) := by
      simp only [Chunk.back, Body.canon, codecStep]
      rw [if_neg]
      · rw [if_neg]
        · rw [g1]
          simp only
          have e : c.canon.classID = BitVec.ofNat 32 k := rfl
          rw [e, hgk]
          simp
        · simp only [Bool.and_eq_true, decide_eq_true_eq, not_and, Decidable.not_not]
          intro hs
          exact hgl hs
      · have e : c.canon.classID = BitVec.ofNat 32 k := rfl
        rw [e, hcc, outOfBounds_ofNat (by simp only [List.length_cons] at hk; omega) hN]
        simp
    have hh1 : ∀ q, h1.get? q = baseInst place insts (done ++ [cls]) q := by
      intro q
      by_cases hq : q ∈ c.canon.ids
      · obtain ⟨j, hj⟩ := List.mem_iff_getElem?.1 hq
        rw [g3 j q hj]
        have hj' : ((members insts.zipIdx cls).map fun x => BitVec.ofNat 32 x.2)[j]? = some q := hj
        rw [List.getElem?_map] at hj'
        cases hx : (members insts.zipIdx cls)[j]? with
        | none => rw [hx] at hj'; cases hj'
        | some x =>
          rw [hx] at hj'
          simp only [Option.map_some, Option.some.injEq] at hj'
          subst hj'
          obtain ⟨hx1, hx2⟩ := mem_members.1 (List.mem_iff_getElem?.2 ⟨j, hx⟩)
          have hlt := (List.getElem?_eq_some_iff.1 hx1).1
          rw [baseInst, toNat_ofNat_lt (by omega), hx1]
          simp only [hx2, List.mem_append, List.mem_singleton, or_true, if_true]
          congr 2
          rw [Nat.zero_add]
          show (c.isService && ((if c.isService then c.getService else [])[j]? == some 1#8)) = _
          have hgs : c.getService[j]? = some (if place && x.1.isService then 1#8 else 0#8) := by
            simp [c, chunkOf, hx]
          cases hsv : (place && x.1.isService) with
          | true =>
            have : c.isService = true := by
              simp only [c, chunkOf, List.any_eq_true]
              exact ⟨x, List.mem_iff_getElem?.2 ⟨j, hx⟩, hsv⟩
            rw [this, if_pos rfl, hgs, hsv]
            rfl
          | false =>
            cases hcs : c.isService with
            | false => rfl
            | true => rw [if_pos rfl, hgs, hsv]; rfl
      · rw [g2 q hq, hh q, baseInst, baseInst]
        cases hi : insts[q.toNat]? with
        | none => rfl
        | some i =>
          simp only
          have : i.className ≠ cls := by
            intro e
            apply hq
            have hm : (i, q.toNat) ∈ members insts.zipIdx cls := mem_members.2 ⟨hi, e⟩
            have := List.mem_map_of_mem (f := fun x : Inst ρ × Nat => BitVec.ofNat 32 x.2) hm
            have e2 : BitVec.ofNat 32 q.toNat = q := by simp
            simp only [e2] at this
            exact this
          simp [this]
    obtain ⟨h', k1, k2⟩ := ih (k + 1) (done ++ [cls]) { st with heap := h1 }
      (by simp only [List.length_cons] at hk; omega)
      (fun x hx => hg x (by rw [List.zipIdx_cons]; exact List.mem_cons_of_mem _ hx))
      (by simpa using hd) hh1
    refine ⟨h', ?_, by simpa using k2⟩
    show (match codecStep quat f (off + k) st (Chunk.back u ⟨.inst c, true⟩).body with
      | (st, .next) => _
      | r => r) = _
    rw [hstep]
    exact k1

end Rbxl

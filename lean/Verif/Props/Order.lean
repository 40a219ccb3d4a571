import Verif.Rbxl.Swap
import Verif.Props.Local
/-!
# C106: the order of chunks that have nothing to do with each other
-/
namespace Props
open Go Rbxfile Rbxl Spec

/-- A chunk other than an INST chunk or the END chunk is decoded with the groups alone. -/
theorem plain_step {slack : Bytes → Nat} {st st1 : LoopState} {raw : Raw} {fl : Bool} (hinst : raw.sig ≠ sigINST) (hend : raw.sig ≠ sigEND)
    (h : stepChunk slack st raw = .ok (st1, fl)) :
    ∃ x : Chunk, (∀ c, x.body ≠ .inst c) ∧ (∀ c, x.body ≠ .end_ c) ∧
      (decodeBody slack st.groups raw = some (.ok x.body) ∨ (∃ s p, x.body = .unknown s p) ∨ ∃ s p, x.body = .errored s p) ∧
      ∀ st' : LoopState, st'.groups = st.groups → ∃ st1', stepChunk slack st' raw = .ok (st1', false) ∧ st1'.chunks = st'.chunks ++ [x] ∧
        st1'.groups = st'.groups := by
  simp only [stepChunk] at h
  rcases hb : decodeBody slack st.groups raw with _ | ⟨body⟩ | e | _ <;> rw [hb] at h
  · refine ⟨⟨.unknown raw.sig raw.payload, raw.compressed⟩, nofun, nofun, .inr (.inl ⟨_, _, rfl⟩), fun st' hg => ?_⟩
    simp only [stepChunk, hg, hb]
    exact ⟨_, rfl, rfl, rfl⟩
  · obtain ⟨b1, b2⟩ := decodeBody_sig hb
    replace b1 := b1 hinst
    replace b2 := b2 hend
    refine ⟨⟨body, raw.compressed⟩, b1, b2, .inl rfl, fun st' hg => ?_⟩
    simp only [stepChunk, hg, hb]
    cases body
    case inst c => exact (b1 c rfl).elim
    case end_ c => exact (b2 c rfl).elim
    all_goals exact ⟨_, rfl, rfl, rfl⟩
  · refine ⟨⟨.errored raw.sig raw.payload, raw.compressed⟩, nofun, nofun, .inr (.inr ⟨_, _, rfl⟩), fun st' hg => ?_⟩
    simp only [stepChunk, hg, hb]
    exact ⟨_, rfl, rfl, rfl⟩
  · cases h

/-- C106: two adjacent chunks other than INST chunks and the END chunk can be swapped if they have nothing to do with each other: the same
tree is decoded. -/
theorem C106_swap (lz : LZ4) (hlz : lz.Lossless) (slack : Bytes → Nat) (quat : Quat)
    (noXML : Bool) (cc ic : BitVec 32) (res : Bytes) (hres : res.length = 8) (p : Bytes)
    (raws : List Raw) (hp : IsFrames lz p raws) (u v : Bytes) (raw raw' : Raw) (hu : IsFrame lz u raw) (hv : IsFrame lz v raw')
    (h1 : raw.sig ≠ sigINST ∧ raw.sig ≠ sigEND) (h2 : raw'.sig ≠ sigINST ∧ raw'.sig ≠ sigEND) (q : Bytes) (h : Heap Id) (r : Root Id)
    (hd : (decodeRoot lz slack quat noXML (binaryStart cc ic res ++ (p ++ (u ++ (v ++ q))))).result = .ok (.tree h r))
    (ha : ∀ f before x y after, (decodeFile lz slack noXML false (binaryStart cc ic res ++ (p ++ (u ++ (v ++ q))))).2.2 = .ok (.model f) →
      f.chunks = before ++ x :: y :: after → before.length = raws.length →
      (∃ st, runRaws slack (loop0 cc ic res) raws = .ok st ∧
        (decodeBody slack st.groups raw = some (.ok x.body) ∨ (∃ s p, x.body = .unknown s p) ∨ ∃ s p, x.body = .errored s p) ∧
        (decodeBody slack st.groups raw' = some (.ok y.body) ∨ (∃ s p, y.body = .unknown s p) ∨ ∃ s p, y.body = .errored s p)) →
      Apart (effects f x.body) (effects f y.body)) :
    ∃ h' r', (decodeRoot lz slack quat noXML (binaryStart cc ic res ++ (p ++ (v ++ (u ++ q))))).result = .ok (.tree h' r') ∧
      SameDecoded h h' r r' := by
  have hfile : (decodeFile lz slack noXML false (binaryStart cc ic res ++ (p ++ (u ++ (v ++ q))))).2.2 =
      (match decodeChunks lz slack ((p ++ (u ++ (v ++ q))).length + 1) (loop0 cc ic res) (p ++ (u ++ (v ++ q))) with
      | (_, .panic) => .panic
      | (_, .err e) => .err e
      | (s, .ok t) => .ok (.model ⟨0, cc, ic, s.chunks, t, s.groups⟩)) := by
    simp only [decodeFile, readStart_start hres, loop0, Bool.false_eq_true, if_false]
    rcases decodeChunks lz slack ((p ++ (u ++ (v ++ q))).length + 1) _ (p ++ (u ++ (v ++ q))) with ⟨st, _ | _ | _⟩ <;> rfl
  rw [decodeRoot_start hres] at hd
  rw [decodeRoot_start hres]
  have k1 := decodeChunks_prefix hlz (slack := slack) hp (loop0 cc ic res) (u ++ (v ++ q))
  have k2 := decodeChunks_prefix hlz (slack := slack) hp (loop0 cc ic res) (v ++ (u ++ q))
  rcases hr : runRaws slack (loop0 cc ic res) raws with st | e | _
  rotate_left
  · exact absurd hr (runRaws_ne_err e)
  · simp only [hr] at k1
    simp only [decodeOut, k1] at hd
    cases hd
  simp only [hr] at k1 k2
  rw [k1] at hd hfile
  rw [k2]
  have hlen : st.chunks.length = raws.length := by
    have := runRaws_chunks raws _ _ hr
    simpa [loop0] using this
  -- a step over a frame
  have over : ∀ (w s : Bytes) (rw_ : Raw) (a b : LoopState), IsFrame lz w rw_ → stepChunk slack a rw_ = .ok (b, false) →
      decodeChunks lz slack ((w ++ s).length + 1) a (w ++ s) = decodeChunks lz slack (s.length + 1) b s := by
    intro w s rw_ a b hw hs
    have hr2 := hw s
    have hl := (rawDecode_ok hlz hr2).2
    rw [decodeChunks, hr2]
    simp only [hs]
    exact decodeChunks_fuel hlz _ _ _ _ (by omega) (by omega)
  have nopanic : ∀ (w s : Bytes) (rw_ : Raw) (a : LoopState), IsFrame lz w rw_ →
      (decodeChunks lz slack ((w ++ s).length + 1) a (w ++ s)).2 ≠ .panic → ∃ b fl, stepChunk slack a rw_ = .ok (b, fl) := by
    intro w s rw_ a hw hne
    rw [decodeChunks, hw s] at hne
    rcases hs : stepChunk slack a rw_ with ⟨b, fl⟩ | e | _
    · exact ⟨b, fl, rfl⟩
    · exact absurd hs ((stepChunk_flag (slack := slack) (st := a) (raw := rw_)).2 e)
    · simp only [hs] at hne; exact absurd rfl hne
  have hne : (decodeChunks lz slack ((u ++ (v ++ q)).length + 1) st (u ++ (v ++ q))).2 ≠ .panic := by
    intro hx
    rcases hy : decodeChunks lz slack ((u ++ (v ++ q)).length + 1) st (u ++ (v ++ q)) with ⟨s, w⟩
    rw [hy] at hx hd
    simp only at hx
    subst hx
    cases hd
  obtain ⟨s1, fl1, hs1⟩ := nopanic _ _ _ _ hu hne
  obtain ⟨x, x1, x2, x3, x4⟩ := plain_step h1.1 h1.2 hs1
  obtain ⟨st1, e1, e2, e3⟩ := x4 st rfl
  have o1 := over u (v ++ q) raw st st1 hu e1
  rw [o1] at hd hfile hne
  obtain ⟨s2, fl2, hs2⟩ := nopanic _ _ _ _ hv hne
  obtain ⟨y, y1, y2, y3, y4⟩ := plain_step h2.1 h2.2 hs2
  obtain ⟨st2, e4, e5, e6⟩ := y4 st1 rfl
  have o2 := over v q raw' st1 st2 hv e4
  rw [o2] at hd hfile
  -- the other order
  obtain ⟨st1', e4', e5', e6'⟩ := y4 st e3.symm
  obtain ⟨st2', e1', e2', e3'⟩ := x4 st1' e6'
  rw [over v (u ++ q) raw' st st1' hv e4', over u q raw st1' st2' hu e1']
  have c2 : st2.chunks = st.chunks ++ [x, y] := by rw [e5, e2]; simp
  have c2' : st2'.chunks = st.chunks ++ [y, x] := by rw [e2', e5']; simp
  obtain ⟨g1, g2, m, g3, g4⟩ := decodeChunks_alike (lz := lz) (slack := slack) (q.length + 1) st2 st2' q (by rw [e6, e3, e3', e6'])
    (by rw [c2, c2']; simp)
  rw [c2] at g3
  rw [c2'] at g4
  rcases hxx : decodeChunks lz slack (q.length + 1) st2 q with ⟨sx, rx⟩
  rcases hyy : decodeChunks lz slack (q.length + 1) st2' q with ⟨sy, ry⟩
  rw [hxx, hyy] at g1 g2
  rw [hxx] at hd hfile g3
  rw [hyy] at g4
  simp only at g1 g2 g3 g4 hfile
  subst g1
  cases rx with
  | err e => cases hd
  | panic => cases hd
  | ok t =>
    simp only at hfile
    have hgr := (decoded_groups hfile).1
    simp only [decodeOut, Res.bind_eq_ok, Res.pure_eq, Res.ok.injEq] at hd
    obtain ⟨⟨h0, r0⟩, hd1, hd2⟩ := hd
    cases hd2
    let F : FormatModel := ⟨0, cc, ic, sx.chunks, t, sx.groups⟩
    have hF : F.chunks = st.chunks ++ x :: y :: m := by
      show sx.chunks = _
      rw [g3]; simp
    have hy3 : decodeBody slack st.groups raw' = some (.ok y.body) ∨ (∃ s p, y.body = .unknown s p) ∨ ∃ s p, y.body = .errored s p := by
      rw [← e3]; exact y3
    have hap := ha F st.chunks x y m hfile hF hlen ⟨st, hr, x3, hy3⟩
    obtain ⟨h', r', a1, a2⟩ := codecDecode_swap quat F st.chunks x y m hF (effect_effects (f := F) hgr x1 x2)
      (effect_effects (f := F) hgr y1 y2) hap hd1
    refine ⟨h', r', ?_, a2⟩
    have hF' : (⟨0, cc, ic, sy.chunks, t, sy.groups⟩ : FormatModel) = { F with chunks := st.chunks ++ y :: x :: m } := by
      rw [g4, ← g2]; simp [F]
    simp only [decodeOut, hF', a1, Res.ok_bind, Res.pure_eq]

/-- What a PROP chunk is decoded to. -/
theorem prop_body {slack : Bytes → Nat} {g : Map (BitVec 32) (Nat × InstChunk)} {raw : Raw} {cid : BitVec 32} {name : Bytes}
    (hprop : propFrame raw cid name) {b : Body} (h : decodeBody slack g raw = some (.ok b)) :
    ∃ c, b = .prop c ∧ c.classID = cid ∧ c.name = name := by
  obtain ⟨hsig, len, values, hlen, hpay⟩ := hprop
  simp only [decodeBody, hsig] at h
  rw [if_neg (by decide), if_neg (by decide), if_neg (by decide), if_pos trivial] at h
  simp only [Option.some.injEq, Res.bind_eq_ok, Res.pure_eq, Res.ok.injEq] at h
  obtain ⟨⟨pc, b⟩, h8, rfl⟩ := h
  refine ⟨pc, rfl, ?_⟩
  rw [hpay] at h8
  simp only [decodeProp, rd_bind, num32_app, Res.ok_bind] at h8
  rcases hg : g.get? cid with _ | ⟨i, inst⟩ <;> rw [hg] at h8 <;> simp only at h8
  · cases h8
  · rw [rd_bind] at h8
    rw [readString_eq.2 ⟨len, rfl, hlen⟩] at h8
    simp only [Res.ok_bind, takeAll, rd_bind] at h8
    split at h8
    · cases h8; exact ⟨rfl, rfl⟩
    · rw [rd_bind] at h8
      obtain ⟨⟨y, b1⟩, -, h8⟩ := (Res.bind_eq_ok ..).1 h8
      cases h8; exact ⟨rfl, rfl⟩

theorem apart_none {e : Effects} : Apart {} e :=
  ⟨fun _ _ h => h.1, fun _ _ _ h => h.1, fun _ h => h.1, fun h => h.1, fun h => h.elim, fun _ _ _ h => h⟩

theorem apart_none' {e : Effects} : Apart e {} :=
  ⟨fun _ _ h => h.2, fun _ _ _ h => h.2, fun _ h => h.2, fun h => h.2, fun _ _ _ h => h, fun h => h.elim⟩

/-- C106: adjacent PROP chunks of different names can be swapped, of whatever classes. -/
theorem C106_properties (lz : LZ4) (hlz : lz.Lossless) (slack : Bytes → Nat) (quat : Quat)
    (noXML : Bool) (cc ic : BitVec 32) (res : Bytes) (hres : res.length = 8) (p : Bytes)
    (raws : List Raw) (hp : IsFrames lz p raws) (u v : Bytes) (raw raw' : Raw) (hu : IsFrame lz u raw) (hv : IsFrame lz v raw')
    (cid cid' : BitVec 32) (name name' : Bytes) (h1 : propFrame raw cid name) (h2 : propFrame raw' cid' name') (hn : name ≠ name')
    (q : Bytes) (h : Heap Id) (r : Root Id)
    (hd : (decodeRoot lz slack quat noXML (binaryStart cc ic res ++ (p ++ (u ++ (v ++ q))))).result = .ok (.tree h r)) :
    ∃ h' r', (decodeRoot lz slack quat noXML (binaryStart cc ic res ++ (p ++ (v ++ (u ++ q))))).result = .ok (.tree h' r') ∧
      SameDecoded h h' r r' := by
  refine C106_swap lz hlz slack quat noXML cc ic res hres p raws hp u v raw raw' hu hv (by rw [h1.1]; decide) (by rw [h2.1]; decide)
    q h r hd ?_
  rintro f before x y after - - - ⟨st, -, hx, hy⟩
  rcases hx with hx | ⟨s, b, hx⟩ | ⟨s, b, hx⟩
  · rcases hy with hy | ⟨s, b, hy⟩ | ⟨s, b, hy⟩
    · obtain ⟨c, e1, -, rfl⟩ := prop_body h1 hx
      obtain ⟨c', e2, -, rfl⟩ := prop_body h2 hy
      rw [e1, e2]
      exact ⟨fun _ _ h => hn (h.1.1.symm.trans h.2.1), fun _ _ _ h => h.1, fun _ h => h.1, fun h => h.1, fun h => h.elim, fun h => h.elim⟩
    · rw [hy]; exact apart_none'
    · rw [hy]; exact apart_none'
  · rw [hx]; exact apart_none
  · rw [hx]; exact apart_none

/-- The body is of the signature. -/
theorem known_body {slack : Bytes → Nat} {g : Map (BitVec 32) (Nat × InstChunk)} {raw : Raw} {b : Body}
    (h : decodeBody slack g raw = some (.ok b)) : (raw.sig = sigPRNT → ∃ c, b = .parent c) ∧ (raw.sig = sigMETA → ∃ c, b = .metadata c) ∧
      (raw.sig = sigPROP → ∃ c, b = .prop c) ∧ (raw.sig = sigSSTR → ∃ c, b = .shared c) := by
  unfold decodeBody at h
  refine ⟨?_, ?_, ?_, ?_⟩ <;> intro hs <;> rw [hs] at h <;> simp only [sigMETA, sigSSTR, sigINST, sigPROP, sigPRNT, sigEND] at h <;>
    simp (config := { decide := true }) only [if_true, if_false] at h <;>
    simp only [Option.some.injEq, Res.bind_eq_ok, Res.pure_eq, Res.ok.injEq] at h <;> obtain ⟨x, -, rfl⟩ := h <;> exact ⟨_, rfl⟩

theorem sorted_body {slack : Bytes → Nat} {g : Map (BitVec 32) (Nat × InstChunk)} {raw : Raw} {b : Body}
    (hk : raw.sig = sigMETA ∨ raw.sig = sigPRNT ∨ raw.sig = sigPROP ∨ raw.sig = sigSSTR)
    (h : decodeBody slack g raw = some (.ok b)) : (raw.sig = sigMETA ∧ ∃ c, b = .metadata c) ∨ (raw.sig = sigPRNT ∧ ∃ c, b = .parent c) ∨
      (raw.sig = sigPROP ∧ ∃ c, b = .prop c) ∨ (raw.sig = sigSSTR ∧ ∃ c, b = .shared c) := by
  obtain ⟨x1, x2, x3, x4⟩ := known_body h
  rcases hk with k | k | k | k
  · exact .inl ⟨k, x2 k⟩
  · exact .inr (.inl ⟨k, x1 k⟩)
  · exact .inr (.inr (.inl ⟨k, x3 k⟩))
  · exact .inr (.inr (.inr ⟨k, x4 k⟩))

/-- The kinds of the chunks that can stand in any order among chunks of other kinds; SSTR and PROP chunks cannot. -/
def Unrelated (s t : BitVec 32) : Prop :=
  s ≠ t ∧ (s = sigMETA ∨ s = sigPRNT ∨ s = sigPROP ∨ s = sigSSTR) ∧ (t = sigMETA ∨ t = sigPRNT ∨ t = sigPROP ∨ t = sigSSTR) ∧
    ¬ (s = sigSSTR ∧ t = sigPROP) ∧ ¬ (s = sigPROP ∧ t = sigSSTR)

/-- C106: adjacent chunks of different kinds can be swapped: META and PRNT, META and PROP, META and SSTR, PRNT and PROP, PRNT and SSTR. -/
theorem C106_kinds (lz : LZ4) (hlz : lz.Lossless) (slack : Bytes → Nat) (quat : Quat)
    (noXML : Bool) (cc ic : BitVec 32) (res : Bytes) (hres : res.length = 8) (p : Bytes)
    (raws : List Raw) (hp : IsFrames lz p raws) (u v : Bytes) (raw raw' : Raw) (hu : IsFrame lz u raw) (hv : IsFrame lz v raw')
    (hk : Unrelated raw.sig raw'.sig) (q : Bytes) (h : Heap Id) (r : Root Id)
    (hd : (decodeRoot lz slack quat noXML (binaryStart cc ic res ++ (p ++ (u ++ (v ++ q))))).result = .ok (.tree h r)) :
    ∃ h' r', (decodeRoot lz slack quat noXML (binaryStart cc ic res ++ (p ++ (v ++ (u ++ q))))).result = .ok (.tree h' r') ∧
      SameDecoded h h' r r' := by
  obtain ⟨k1, k2, k3, k4, k5⟩ := hk
  have no : ∀ {s : BitVec 32}, (s = sigMETA ∨ s = sigPRNT ∨ s = sigPROP ∨ s = sigSSTR) → s ≠ sigINST ∧ s ≠ sigEND := by
    rintro s (rfl | rfl | rfl | rfl) <;> decide
  refine C106_swap lz hlz slack quat noXML cc ic res hres p raws hp u v raw raw' hu hv (no k2) (no k3) q h r hd ?_
  rintro f before x y after - - - ⟨st, -, hx, hy⟩
  rcases hx with hx | ⟨s, b, hx⟩ | ⟨s, b, hx⟩
  · rcases hy with hy | ⟨s, b, hy⟩ | ⟨s, b, hy⟩
    · rcases sorted_body k2 hx with ⟨k, c, e1⟩ | ⟨k, c, e1⟩ | ⟨k, c, e1⟩ | ⟨k, c, e1⟩ <;>
        rcases sorted_body k3 hy with ⟨k', c', e2⟩ | ⟨k', c', e2⟩ | ⟨k', c', e2⟩ | ⟨k', c', e2⟩ <;>
        first
        | exact absurd (k.trans k'.symm) k1
        | exact absurd (And.intro k k') k4
        | exact absurd (And.intro k k') k5
        | (rw [e1, e2]
           exact ⟨fun _ _ h => h.elim (fun a b => by first | exact a.elim | exact b.elim), fun _ _ _ h => h.elim (fun a b => by first | exact a.elim | exact b.elim),
             fun _ h => h.elim (fun a b => by first | exact a.elim | exact b.elim), fun h => h.elim (fun a b => by first | exact a.elim | exact b.elim),
             fun a => by first | exact a.elim | exact fun _ _ h => h, fun a => by first | exact a.elim | exact fun _ _ h => h⟩)
    · rw [hy]; exact apart_none'
    · rw [hy]; exact apart_none'
  · rw [hx]; exact apart_none
  · rw [hx]; exact apart_none

set_option synthInstance.maxSize 1024

/-- Swapping PROP and PRNT, META and INST's followers: the same is decoded. -/
example : localView (fileOf 1 1 (instA ++ (propP [0x02, 1] ++ (prntA ++ (metaKV ++ endFrame))))) = some ([([0x41], some true, [])], [0], some [0x56]) ∧
    localView (fileOf 1 1 (instA ++ (prntA ++ (propP [0x02, 1] ++ (metaKV ++ endFrame))))) = some ([([0x41], some true, [])], [0], some [0x56]) ∧
    localView (fileOf 1 1 (instA ++ (prntA ++ (metaKV ++ (propP [0x02, 1] ++ endFrame))))) = some ([([0x41], some true, [])], [0], some [0x56]) := by
  decide +kernel

/-- The kinds of the example. -/
example : Unrelated sigPROP sigPRNT ∧ Unrelated sigMETA sigPROP ∧ Unrelated sigPRNT sigSSTR := by
  unfold Unrelated; decide

/-- PROP chunks of the same name and class cannot be swapped: the last one counts. -/
theorem C106_same_property : localView (fileOf 1 1 (instA ++ (propP [0x02, 1] ++ (propP [0x02, 0] ++ (prntA ++ endFrame))))) =
      some ([([0x41], some false, [])], [0], none) ∧
    localView (fileOf 1 1 (instA ++ (propP [0x02, 0] ++ (propP [0x02, 1] ++ (prntA ++ endFrame))))) =
      some ([([0x41], some true, [])], [0], none) := by
  decide +kernel

/-- A PROP chunk cannot be swapped with the INST chunk of its class: before it, it fails to decode and has no effect. -/
theorem C106_before_inst : localView (fileOf 1 1 (instA ++ (propP [0x02, 1] ++ (prntA ++ endFrame)))) = some ([([0x41], some true, [])], [0], none) ∧
    localView (fileOf 1 1 (propP [0x02, 1] ++ (instA ++ (prntA ++ endFrame)))) = some ([([0x41], none, [])], [0], none) := by
  decide +kernel

end Props

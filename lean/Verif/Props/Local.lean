import Verif.Rbxl.Local
import Verif.Rbxl.DumpDecoded
import Verif.Rbxl.PanicFrames
import Verif.Props.Framing
import Verif.Props.Dump
/-!
# C104: what a chunk has an effect on
-/
namespace Spec
open Rbxl Go

/-- An INST chunk of the file lists the instance `id` with the class `cid`. -/
def Listed (f : FormatModel) (cid id : BitVec 32) : Prop := ∃ x ∈ f.chunks, ∃ c, x.body = .inst c ∧ c.classID = cid ∧ id ∈ c.ids

/-- What a chunk of the file has an effect on: a PROP chunk on one property of the instances of its class; a PRNT chunk on the children
it lists; a META chunk on the entries it lists; a SSTR chunk on the contents of SharedStrings. -/
def effects (f : FormatModel) : Body → Effects
  | .prop c => { property := fun id n => n = c.name ∧ Listed f c.classID id }
  | .parent c => { child := fun parent child => (child, parent) ∈ c.children.zip c.parents }
  | .metadata vs => { metadata := fun k => ∃ v, (k, v) ∈ vs }
  | .shared _ => { shared := True }
  | _ => {}

end Spec

namespace Props
open Go Rbxfile Rbxl Spec

theorem lookupAfter_get : ∀ (cs : List Chunk) (i : Nat) (g : Map (BitVec 32) (Nat × InstChunk)) (c : BitVec 32) (e : Nat × InstChunk),
    (lookupAfter i g cs).get? c = some e → g.get? c = some e ∨ ∃ x ∈ cs, x.body = .inst e.2 ∧ e.2.classID = c
  | [], i, g, c, e, h => .inl h
  | x :: cs, i, g, c, e, h => by
    rw [lookupAfter] at h
    rcases lookupAfter_get cs _ _ c e h with h1 | ⟨y, h1, h2⟩
    · cases hb : x.body with
      | inst k =>
        rw [hb] at h1
        by_cases hc : c = k.classID
        · subst hc
          simp only [addGroup, Map.get?_set_self, Option.some.injEq] at h1
          subst h1
          exact .inr ⟨x, List.mem_cons_self .., hb, rfl⟩
        · simp only [addGroup] at h1
          rw [Map.get?_set_ne _ _ hc] at h1
          exact .inl h1
      | _ => rw [hb] at h1; exact .inl h1
    · exact .inr ⟨y, List.mem_cons_of_mem _ h1, h2⟩

theorem effect_effects {f : FormatModel} (hf : f.groupLookup = lookupAfter 0 [] f.chunks) {b : Body} (h1 : ∀ c, b ≠ .inst c)
    (h2 : ∀ c, b ≠ .end_ c) : Effect f.groupLookup (effects f b) b := by
  cases b with
  | inst c => exact (h1 c rfl).elim
  | end_ c => exact (h2 c rfl).elim
  | prop c =>
    intro i inst hi id hid
    rw [hf] at hi
    rcases lookupAfter_get _ _ _ _ _ hi with h3 | ⟨x, h3, h4, h5⟩
    · cases h3
    · exact ⟨rfl, x, h3, inst, h4, h5, hid⟩
  | parent c => exact fun x hx => hx
  | metadata vs => exact fun v hv => ⟨v.2, hv⟩
  | shared c => exact trivial
  | unknown _ _ => trivial
  | errored _ _ => trivial

theorem runRaws_chunks {slack : Bytes → Nat} : ∀ (raws : List Raw) (st st' : LoopState), runRaws slack st raws = .ok st' →
    st'.chunks.length = st.chunks.length + raws.length
  | [], st, st', h => by simp [runRaws] at h; subst h; rfl
  | r :: raws, st, st', h => by
    simp only [runRaws, Res.bind_eq_ok] at h
    obtain ⟨⟨st1, f⟩, h1, h2⟩ := h
    have h3 := runRaws_chunks raws _ _ h2
    have h4 : st1.chunks.length = st.chunks.length + 1 := by
      simp only [stepChunk] at h1
      rcases hb : decodeBody slack st.groups r with _ | ⟨body⟩ | e | _ <;> simp only [hb] at h1 <;> cases h1 <;> simp
    rw [h3, List.length_cons]
    simp only
    omega

/-- The body is of the signature. -/
theorem decodeBody_sig {slack : Bytes → Nat} {groups : Map (BitVec 32) (Nat × InstChunk)} {raw : Raw} {b : Body}
    (h : decodeBody slack groups raw = some (.ok b)) : (raw.sig ≠ sigINST → ∀ c, b ≠ .inst c) ∧ (raw.sig ≠ sigEND → ∀ c, b ≠ .end_ c) := by
  unfold decodeBody at h
  constructor
  · rintro hs c rfl
    repeat' split at h
    all_goals first
      | exact hs (by assumption)
      | (simp only [Option.some.injEq, Res.bind_eq_ok, Res.pure_eq, Res.ok.injEq] at h; obtain ⟨x, -, h2⟩ := h; cases h2)
      | (cases h; done)
  · rintro hs c rfl
    repeat' split at h
    all_goals first
      | exact hs (by assumption)
      | (simp only [Option.some.injEq, Res.bind_eq_ok, Res.pure_eq, Res.ok.injEq] at h; obtain ⟨x, -, h2⟩ := h; cases h2)
      | (cases h; done)

/-- C104: a chunk other than an INST chunk or the END chunk can be removed from a file that can be decoded; what is decoded then is the same
besides what the chunk has an effect on. -/
theorem C104_chunk_effects (lz : LZ4) (hlz : lz.Lossless) (slack : Bytes → Nat) (quat : Quat)
    (noXML : Bool) (cc ic : BitVec 32) (res : Bytes) (hres : res.length = 8) (p : Bytes)
    (raws : List Raw) (hp : IsFrames lz p raws) (u : Bytes) (raw : Raw) (hu : IsFrame lz u raw)
    (hinst : raw.sig ≠ sigINST) (hend : raw.sig ≠ sigEND) (q : Bytes) (h' : Heap Id) (r' : Root Id)
    (hd : (decodeRoot lz slack quat noXML (binaryStart cc ic res ++ (p ++ (u ++ q)))).result = .ok (.tree h' r')) :
    ∃ f before x after, (decodeFile lz slack noXML false (binaryStart cc ic res ++ (p ++ (u ++ q)))).2.2 = .ok (.model f) ∧
      f.chunks = before ++ x :: after ∧ before.length = raws.length ∧
      (∃ st, runRaws slack (loop0 cc ic res) raws = .ok st ∧
        (decodeBody slack st.groups raw = some (.ok x.body) ∨ (∃ s p, x.body = .unknown s p) ∨ ∃ s p, x.body = .errored s p)) ∧
      ∃ h r, (decodeRoot lz slack quat noXML (binaryStart cc ic res ++ (p ++ q))).result = .ok (.tree h r) ∧
        SameBesides (effects f x.body) h h' r r' := by
  have hfile : (decodeFile lz slack noXML false (binaryStart cc ic res ++ (p ++ (u ++ q)))).2.2 =
      (match decodeChunks lz slack ((p ++ (u ++ q)).length + 1) (loop0 cc ic res) (p ++ (u ++ q)) with
      | (_, .panic) => .panic
      | (_, .err e) => .err e
      | (s, .ok t) => .ok (.model ⟨0, cc, ic, s.chunks, t, s.groups⟩)) := by
    simp only [decodeFile, readStart_start hres, loop0, Bool.false_eq_true, if_false]
    rcases decodeChunks lz slack ((p ++ (u ++ q)).length + 1) _ (p ++ (u ++ q)) with ⟨st, _ | _ | _⟩ <;> rfl
  rw [decodeRoot_start hres] at hd
  rw [decodeRoot_start hres]
  have k1 := decodeChunks_prefix hlz (slack := slack) hp (loop0 cc ic res) q
  have k2 := decodeChunks_prefix hlz (slack := slack) hp (loop0 cc ic res) (u ++ q)
  rcases hr : runRaws slack (loop0 cc ic res) raws with st | e | _
  · simp only [hr] at k1 k2
    rw [k2] at hd hfile
    rw [k1]
    have hr2 := hu q
    have hl := (rawDecode_ok hlz hr2).2
    have hlen : st.chunks.length = raws.length := by
      have := runRaws_chunks raws _ _ hr
      simpa [loop0] using this
    have hgl := (groups_lt raws (loop0 cc ic res) st hr (by intro e he; cases he)).symm
    -- one step over the chunk
    have hstep : ∃ x st', stepChunk slack st raw = .ok (st', false) ∧ (∀ c, x.body ≠ .inst c) ∧ (∀ c, x.body ≠ .end_ c) ∧
        (∃ d, Inserted st.chunks.length d x st st') ∧
        (decodeBody slack st.groups raw = some (.ok x.body) ∨ (∃ s p, x.body = .unknown s p) ∨ ∃ s p, x.body = .errored s p) := by
      rcases hb : decodeBody slack st.groups raw with _ | ⟨body⟩ | e | _
      · simp only [stepChunk, hb]
        exact ⟨⟨.unknown raw.sig raw.payload, raw.compressed⟩, _, rfl, nofun, nofun,
          ⟨1, Nat.le_refl _, by simp, hgl, by simp⟩, .inr (.inl ⟨_, _, rfl⟩)⟩
      · obtain ⟨b1, b2⟩ := decodeBody_sig hb
        replace b1 := b1 hinst
        replace b2 := b2 hend
        simp only [stepChunk, hb]
        cases body
        case inst c => exact (b1 c rfl).elim
        case end_ c => exact (b2 c rfl).elim
        all_goals exact ⟨⟨_, raw.compressed⟩, _, rfl, b1, b2, ⟨0, Nat.le_refl _, by simp, hgl, by simp⟩, .inl rfl⟩
      · simp only [stepChunk, hb]
        exact ⟨⟨.errored raw.sig raw.payload, raw.compressed⟩, _, rfl, nofun, nofun,
          ⟨1, Nat.le_refl _, by simp, hgl, by simp⟩, .inr (.inr ⟨_, _, rfl⟩)⟩
      · exfalso
        have : decodeChunks lz slack ((u ++ q).length + 1) st (u ++ q) = (st, .panic) := by
          rw [decodeChunks, hr2]; simp only [stepChunk, hb]
        rw [this] at hd
        cases hd
    obtain ⟨x, st', hs, hx1, hx2, ⟨d, hi⟩, hx3⟩ := hstep
    have e1 : decodeChunks lz slack ((u ++ q).length + 1) st (u ++ q) =
        decodeChunks lz slack (q.length + 1) st' q := by
      rw [decodeChunks, hr2]
      simp only [hs]
      exact decodeChunks_fuel hlz _ _ _ _ (by omega) (by omega)
    rw [e1] at hd hfile
    obtain ⟨g1, g2⟩ := decodeChunks_inserted (lz := lz) (slack := slack) (q.length + 1) q hi
    rcases hxx : decodeChunks lz slack (q.length + 1) st q with ⟨sx, rx⟩
    rcases hy : decodeChunks lz slack (q.length + 1) st' q with ⟨sy, ry⟩
    rw [hxx, hy] at g1 g2
    rw [hy] at hd hfile
    simp only at g1 g2 hfile
    subst g1
    cases ry with
    | err e => cases hd
    | panic => cases hd
    | ok t =>
      simp only at hfile
      have hgr := (decoded_groups hfile).1
      let F : FormatModel := ⟨0, cc, ic, sy.chunks, t, sy.groups⟩
      simp only [decodeOut, Res.bind_eq_ok, Res.pure_eq, Res.ok.injEq] at hd
      obtain ⟨⟨h1, r1⟩, hd1, hd2⟩ := hd
      cases hd2
      have hF : F.chunks = sx.chunks.take st.chunks.length ++ x :: sx.chunks.drop st.chunks.length := g2.chunks
      obtain ⟨h, r, c1, c2⟩ := codecDecode_ignored quat F _ x ⟨.unknown 0 [], false⟩ _ hF
        (effect_effects (f := F) hgr hx1 hx2) (.inl ⟨_, _, rfl⟩) hd1
      obtain ⟨c3, -⟩ := codecDecode_inserted quat st.chunks.length ⟨0, cc, ic, sx.chunks, t, sx.groups⟩
        { F with chunks := sx.chunks.take st.chunks.length ++ ⟨.unknown 0 [], false⟩ :: sx.chunks.drop st.chunks.length }
        ⟨.unknown 0 [], false⟩ rfl rfl g2.groups g2.len (.inl ⟨_, _, rfl⟩) rfl
      rw [c1] at c3
      refine ⟨F, _, x, _, hfile, hF, ?_, ⟨st, rfl, hx3⟩, h, r, ?_, c2⟩
      · rw [List.length_take, Nat.min_eq_left g2.len, hlen]
      · simp only [decodeOut, ← c3, Res.ok_bind, Res.pure_eq]
  · exact absurd hr (runRaws_ne_err e)
  · simp only [hr] at k2
    simp only [decodeOut, k2] at hd
    cases hd

/-- Children that cannot differ do not. -/
theorem _root_.Spec.ChildrenBesides.eq {e : Effects} {p : BitVec 32} {l m : List (BitVec 32)} (h : ChildrenBesides e p l m) (hc : ∀ c, ¬ e.child p c) :
    l = m :=
  h.1.eq_of_length (List.perm_iff_count.2 fun c => h.2 c (hc c)).length_eq

/-- A PROP chunk of the class and the name. -/
def propFrame (raw : Raw) (cid : BitVec 32) (name : Bytes) : Prop :=
  raw.sig = sigPROP ∧ ∃ len values, name.length = BitVec.toNat (w := 32) len ∧ raw.payload = le32 cid ++ (le32 len ++ (name ++ values))

/-- C104: a PROP chunk has an effect on no more than the property of its name, of the instances that the INST chunks list with its class:
without the chunk every instance is the same in its class, flags, children and other properties. -/
theorem C104_property (lz : LZ4) (hlz : lz.Lossless) (slack : Bytes → Nat) (quat : Quat)
    (noXML : Bool) (cc ic : BitVec 32) (res : Bytes) (hres : res.length = 8) (p : Bytes)
    (raws : List Raw) (hp : IsFrames lz p raws) (u : Bytes) (raw : Raw) (hu : IsFrame lz u raw)
    (cid : BitVec 32) (name : Bytes) (hprop : propFrame raw cid name) (q : Bytes) (h' : Heap Id) (r' : Root Id)
    (hd : (decodeRoot lz slack quat noXML (binaryStart cc ic res ++ (p ++ (u ++ q)))).result = .ok (.tree h' r')) :
    ∃ f h r, (decodeFile lz slack noXML false (binaryStart cc ic res ++ (p ++ (u ++ q)))).2.2 = .ok (.model f) ∧
      (decodeRoot lz slack quat noXML (binaryStart cc ic res ++ (p ++ q))).result = .ok (.tree h r) ∧
      r.instances = r'.instances ∧ (∀ k, r.metadata.get? k = r'.metadata.get? k) ∧
      ∀ id, (h.get? id = none ∧ h'.get? id = none) ∨ ∃ i j, h.get? id = some i ∧ h'.get? id = some j ∧
        i.className = j.className ∧ i.reference = j.reference ∧ i.isService = j.isService ∧ i.children = j.children ∧
        ∀ n, ¬ (n = name ∧ Listed f cid id) → i.properties.get? n = j.properties.get? n := by
  obtain ⟨hsig, len, values, hlen, hpay⟩ := hprop
  obtain ⟨f, before, x, after, h1, h2, h3, ⟨st, h4, h5⟩, h, r, h6, h7⟩ := C104_chunk_effects lz hlz slack quat noXML cc ic res hres p raws
    hp u raw hu (by rw [hsig]; decide) (by rw [hsig]; decide) q h' r' hd
  have key : ∀ e : Effects, (∀ i n, e.property i n → n = name ∧ Listed f cid i) → (∀ p c, ¬ e.child p c) → (∀ k, ¬ e.metadata k) → ¬ e.shared →
      SameBesides e h h' r r' → r.instances = r'.instances ∧ (∀ k, r.metadata.get? k = r'.metadata.get? k) ∧
      ∀ id, (h.get? id = none ∧ h'.get? id = none) ∨ ∃ i j, h.get? id = some i ∧ h'.get? id = some j ∧
        i.className = j.className ∧ i.reference = j.reference ∧ i.isService = j.isService ∧ i.children = j.children ∧
        ∀ n, ¬ (n = name ∧ Listed f cid id) → i.properties.get? n = j.properties.get? n := by
    intro e e1 e2 e3 e4 hs
    refine ⟨hs.roots.eq (e2 _), fun k => hs.metadata k (e3 k), fun id => ?_⟩
    rcases hs.instances id with h8 | ⟨i, j, h8, h9, h10⟩
    · exact .inl h8
    · refine .inr ⟨i, j, h8, h9, h10.className, h10.reference, h10.isService, h10.children.eq (e2 _), fun n hn => ?_⟩
      rcases h10.properties n (fun hp => hn (e1 _ _ hp)) with ⟨h11, h12⟩ | ⟨v, w, h11, h12, h13⟩
      · rw [h11, h12]
      · rcases h13 with rfl | ⟨h13, -⟩
        · rw [h11, h12]
        · exact (e4 h13).elim
  refine ⟨f, h, r, h1, h6, ?_⟩
  rcases h5 with h5 | ⟨s, b, h5⟩ | ⟨s, b, h5⟩
  · simp only [decodeBody, hsig] at h5
    rw [if_neg (by decide), if_neg (by decide), if_neg (by decide), if_pos trivial] at h5
    simp only [Option.some.injEq, Res.bind_eq_ok, Res.pure_eq, Res.ok.injEq] at h5
    obtain ⟨⟨pc, b⟩, h8, h9⟩ := h5
    simp only at h9
    rw [← h9] at h7
    have hpc : pc.classID = cid ∧ pc.name = name := by
      rw [hpay] at h8
      simp only [decodeProp, rd_bind, num32_app, Res.ok_bind] at h8
      rcases hg : st.groups.get? cid with _ | ⟨i, inst⟩ <;> rw [hg] at h8 <;> simp only at h8
      · cases h8
      · rw [rd_bind] at h8
        rw [readString_eq.2 ⟨len, rfl, hlen⟩] at h8
        simp only [Res.ok_bind, takeAll, rd_bind] at h8
        split at h8
        · cases h8; exact ⟨rfl, rfl⟩
        · rw [rd_bind] at h8
          obtain ⟨⟨y, b1⟩, -, h8⟩ := (Res.bind_eq_ok ..).1 h8
          cases h8; exact ⟨rfl, rfl⟩
    obtain ⟨rfl, rfl⟩ := hpc
    exact key _ (fun i n hx => hx) (fun _ _ => id) (fun _ => id) id h7
  · rw [h5] at h7
    exact key {} (fun _ _ hx => False.elim hx) (fun _ _ => id) (fun _ => id) id h7
  · rw [h5] at h7
    exact key {} (fun _ _ hx => False.elim hx) (fun _ _ => id) (fun _ => id) id h7

/-- C104: the two chunks may be of any values: when one PROP chunk is replaced with another of the same class and name, no more changes
than that property. -/
theorem C104_replace (lz : LZ4) (hlz : lz.Lossless) (slack : Bytes → Nat) (quat : Quat)
    (noXML : Bool) (cc ic : BitVec 32) (res : Bytes) (hres : res.length = 8) (p : Bytes)
    (raws : List Raw) (hp : IsFrames lz p raws) (u v : Bytes) (raw raw' : Raw) (hu : IsFrame lz u raw) (hv : IsFrame lz v raw')
    (cid : BitVec 32) (name : Bytes) (hprop : propFrame raw cid name) (hprop' : propFrame raw' cid name) (q : Bytes)
    (h h' : Heap Id) (r r' : Root Id)
    (hd : (decodeRoot lz slack quat noXML (binaryStart cc ic res ++ (p ++ (u ++ q)))).result = .ok (.tree h r))
    (hd' : (decodeRoot lz slack quat noXML (binaryStart cc ic res ++ (p ++ (v ++ q)))).result = .ok (.tree h' r')) :
    r.instances = r'.instances ∧ (∀ k, r.metadata.get? k = r'.metadata.get? k) ∧
      ∀ id, (h.get? id = none ∧ h'.get? id = none) ∨ ∃ i j, h.get? id = some i ∧ h'.get? id = some j ∧
        i.className = j.className ∧ i.reference = j.reference ∧ i.isService = j.isService ∧ i.children = j.children ∧
        ∀ n, n ≠ name → i.properties.get? n = j.properties.get? n := by
  obtain ⟨f, h0, r0, -, h1, h2, h3, h4⟩ := C104_property lz hlz slack quat noXML cc ic res hres p raws hp u raw hu cid name hprop q h r hd
  obtain ⟨f', h0', r0', -, h1', h2', h3', h4'⟩ :=
    C104_property lz hlz slack quat noXML cc ic res hres p raws hp v raw' hv cid name hprop' q h' r' hd'
  have e := h1.symm.trans h1'
  simp only [Res.ok.injEq, Out.tree.injEq] at e
  obtain ⟨rfl, rfl⟩ := e
  refine ⟨h2.symm.trans h2', fun k => (h3 k).symm.trans (h3' k), fun id => ?_⟩
  rcases h4 id with ⟨a1, a2⟩ | ⟨i, j, a1, a2, a3, a4, a5, a6, a7⟩ <;> rcases h4' id with ⟨b1, b2⟩ | ⟨i', j', b1, b2, b3, b4, b5, b6, b7⟩
  · exact .inl ⟨a2, b2⟩
  · rw [a1] at b1; cases b1
  · rw [a1] at b1; cases b1
  · rw [a1] at b1; cases b1
    exact .inr ⟨j, j', a2, b2, a3.symm.trans b3, a4.symm.trans b4, a5.symm.trans b5, a6.symm.trans b6,
      fun n hn => (a7 n fun hx => hn hx.1).symm.trans (b7 n fun hx => hn hx.1)⟩

/-! ### examples -/

/-- A PRNT chunk that puts the instance 0 at the root. -/
def prntA : Bytes := plainFrame sigPRNT [0, 1, 0, 0, 0, 0, 0, 0, 0, 0, 0, 0, 1]

/-- A META chunk with one entry. -/
def metaKV : Bytes := plainFrame sigMETA [1, 0, 0, 0, 1, 0, 0, 0, 0x4B, 1, 0, 0, 0, 0x56]

/-- A boolean value. -/
def boolOf : Value Id → Bool
  | .bool b => b
  | _ => false

set_option synthInstance.maxSize 1024

/-- The outcome of decoding the file: the class names, the property "P" and the children of the instances; the children of the root; the
entry "K" of the metadata. -/
def localView (b : Bytes) : Option (List (Bytes × Option Bool × List (BitVec 32)) × List (BitVec 32) × Option Bytes) :=
  match (decodeRoot LZ4.stored (fun _ => 0) (fun _ _ _ _ => zeroMatrix) false b).result with
  | .ok (.tree h r) => some (h.map fun x => (x.2.className, (x.2.properties.get? [0x50]).map boolOf, x.2.children), r.instances,
      r.metadata.get? [0x4B])
  | _ => none

/-- A file with every kind of chunk; the same file without the PROP chunk, without the META chunk, without the PRNT chunk; and with another
PROP chunk. -/
example : localView (fileOf 1 1 (metaKV ++ (instA ++ (propP [0x02, 1] ++ (prntA ++ endFrame))))) = some ([([0x41], some true, [])], [0], some [0x56]) ∧
    localView (fileOf 1 1 (metaKV ++ (instA ++ (prntA ++ endFrame)))) = some ([([0x41], none, [])], [0], some [0x56]) ∧
    localView (fileOf 1 1 (instA ++ (propP [0x02, 1] ++ (prntA ++ endFrame)))) = some ([([0x41], some true, [])], [0], none) ∧
    localView (fileOf 1 1 (metaKV ++ (instA ++ (propP [0x02, 1] ++ endFrame)))) = some ([([0x41], some true, [])], [], some [0x56]) ∧
    localView (fileOf 1 1 (metaKV ++ (instA ++ (propP [0x02, 0] ++ (prntA ++ endFrame))))) = some ([([0x41], some false, [])], [0], some [0x56]) := by
  decide +kernel

/-- The frames of the example meet the hypotheses. -/
example : IsFrame LZ4.stored (propP [0x02, 1]) ⟨sigPROP, false, [0, 0, 0, 0, 1, 0, 0, 0, 0x50, 0x02, 1]⟩ ∧
    propFrame ⟨sigPROP, false, [0, 0, 0, 0, 1, 0, 0, 0, 0x50, 0x02, 1]⟩ 0 [0x50] ∧
    IsFrames LZ4.stored instA [⟨sigINST, false, [0, 0, 0, 0, 1, 0, 0, 0, 0x41, 0, 1, 0, 0, 0, 0, 0, 0, 0]⟩] := by
  refine ⟨isFrame_of_write LZ4.stored_lossless _ (by decide) _ rfl, ⟨rfl, 1#32, [0x02, 1], rfl, rfl⟩, ?_⟩
  have := IsFrames.cons (b := []) (raws := []) (isFrame_of_write LZ4.stored_lossless
    ⟨sigINST, false, [0, 0, 0, 0, 1, 0, 0, 0, 0x41, 0, 1, 0, 0, 0, 0, 0, 0, 0]⟩ (by decide) _ rfl) (by decide) .nil
  rw [List.append_nil] at this
  exact this

/-- An INST chunk cannot be removed in the same way: without it, its instance is missing, and with it the child at the root. -/
example : localView (fileOf 1 1 (propP [0x02, 1] ++ (prntA ++ endFrame))) = some ([], [], none) := by
  decide +kernel

end Props

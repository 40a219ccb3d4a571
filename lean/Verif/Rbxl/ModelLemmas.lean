import Verif.Rbxl.Model
import Verif.Rbxl.ArraysLemmas
/-!
# Lemmas about chunks and framing
-/
namespace Rbxl
open Go

/-! ### readers on concatenations -/

theorem takeN_app {n : Nat} {a : Bytes} (h : a.length = n) (r : Bytes) :
    takeN n (a ++ r) = .ok (a, r) := by
  subst h
  simp [takeN]

@[simp] theorem num8_cons (x : Byte) (r : Bytes) : num8 (x :: r) = .ok (x, r) := by
  simp [num8, readU8]
@[simp] theorem num16_app (x : BitVec 16) (r : Bytes) : num16 (le16 x ++ r) = .ok (x, r) := by
  simp only [num16, List.length_append, le16_length]
  rw [if_neg (by omega), readLe16_le16]
@[simp] theorem num32_app (x : BitVec 32) (r : Bytes) : num32 (le32 x ++ r) = .ok (x, r) := by
  simp only [num32, List.length_append, le32_length]
  rw [if_neg (by omega), readLe32_le32]

theorem readString_app (s r : Bytes) (h : s.length < 2 ^ 32) :
    readString (writeString s ++ r) = .ok (s, r) := by
  simp only [readString, writeString, rd_bind, List.append_assoc, num32_app, Res.ok_bind]
  exact takeN_app (len32_toNat s h).symm r

@[simp] theorem liftRes_ok {α : Type} (a : α) (b : Bytes) :
    liftRes (.ok a) b = .ok (a, b) := rfl

theorem readRefs_app (refs : List (BitVec 32)) (r : Bytes) (h : refs.length < 2 ^ 30) :
    ∃ e, (if refs = [] then pure [] else refArrayToBytes refs : Res Bytes) = .ok e ∧
      readRefs (len32 refs) (e ++ r) = .ok (refs, r) := by
  by_cases hne : refs = []
  · subst hne; exact ⟨[], rfl, rfl⟩
  · obtain ⟨e, h1, h2, h3⟩ := refs_roundtrip refs hne
    refine ⟨e, by simp [hne, h1], ?_⟩
    have hl := len32_toNat refs (by omega)
    have hne0 : len32 refs ≠ 0#32 := by
      intro h0
      have := List.length_pos_iff.2 hne
      simp [h0] at hl; omega
    have hm : (len32 refs * 4#32).toNat = 4 * refs.length := by
      rw [BitVec.toNat_mul, hl]; simp; omega
    simp only [readRefs, hne0, if_false, rd_bind, hm]
    rw [takeN_app h2]
    simp only [Res.ok_bind, hl, h3, liftRes_ok]

theorem rdMany_app_mem {α : Type} {rd : Rd α} {enc : α → Bytes} (l : List α)
    (h : ∀ a ∈ l, ∀ r, rd (enc a ++ r) = .ok (a, r)) (r : Bytes) :
    rdMany rd l.length (l.flatMap enc ++ r) = .ok (l, r) := by
  induction l with
  | nil => rfl
  | cons a l ih =>
    simp only [List.mem_cons, forall_eq_or_imp] at h
    simp [rdMany, h.1, ih h.2]

/-! ### chunk payloads -/

/-- A service flag array is only stored for services. -/
def InstChunk.canon (c : InstChunk) : InstChunk :=
  { c with getService := if c.isService then c.getService else [] }

/-- What a chunk decodes to: fields that are not stored are cleared. -/
def Body.canon : Body → Body
  | .inst c => .inst c.canon
  | .prop c => .prop { c with props := c.props.map Arr.canon }
  | b => b

/-- Sizes fit into the fields of the format and lengths are consistent. -/
def Body.Good (groups : Map (BitVec 32) (Nat × InstChunk)) : Body → Prop
  | .inst c => c.className.length < 2 ^ 32 ∧ c.ids.length < 2 ^ 30 ∧
      (c.isService = true → c.getService.length = c.ids.length)
  | .prop c => c.name.length < 2 ^ 32 ∧ ∃ i inst, groups.get? c.classID = some (i, inst) ∧
      ∀ a, c.props = some a → a.Good inst.ids.length
  | .parent c => c.parents.length = c.children.length ∧ c.children.length < 2 ^ 30
  | .metadata vs => vs.length < 2 ^ 32 ∧ ∀ kv ∈ vs, kv.1.length < 2 ^ 32 ∧ kv.2.length < 2 ^ 32
  | .shared c => c.values.length < 2 ^ 32 ∧
      ∀ hv ∈ c.values, hv.1.length = 16 ∧ hv.2.length < 2 ^ 32
  | .end_ _ => True
  | .unknown s _ => validChunk s = false
  | .errored _ _ => False

theorem decodeInst_payload (c : InstChunk) (h : (Body.inst c).Good g) :
    ∃ e, (Body.inst c).payload = .ok e ∧ decodeInst e = .ok (c.canon, []) := by
  obtain ⟨h1, h2, h3⟩ := h
  obtain ⟨e, he, hr⟩ := readRefs_app c.ids (if c.isService then c.getService else []) h2
  refine ⟨_, by simp only [Body.payload, he, Res.ok_bind]; rfl, ?_⟩
  have hl := len32_toNat c.ids (by omega)
  simp only [decodeInst, rd_bind, num32_app, Res.ok_bind, readString_app _ _ h1, num8_cons, hr]
  cases hs : c.isService
  · simp [InstChunk.canon, hs]
  · have := takeN_app (h3 hs) []
    rw [List.append_nil] at this
    simp [InstChunk.canon, hs, hl, this]

theorem decodeParent_payload (c : ParentChunk) (h : (Body.parent c).Good g) :
    ∃ e, (Body.parent c).payload = .ok e ∧ decodeParent e = .ok (c, []) := by
  obtain ⟨h1, h2⟩ := h
  obtain ⟨e2, he2, hr2⟩ := readRefs_app c.parents [] (by omega)
  obtain ⟨e1, he1, hr1⟩ := readRefs_app c.children e2 h2
  have hiff : (c.children = []) ↔ (c.parents = []) := by
    rw [← List.length_eq_zero_iff, ← List.length_eq_zero_iff, h1]
  refine ⟨c.version :: (le32 (len32 c.children) ++ (e1 ++ e2)), ?_, ?_⟩
  · simp only [Body.payload, h1, ne_eq, not_true_eq_false, if_false, he1, Res.ok_bind]
    simp only [hiff]; rw [he2]; rfl
  · have hp : len32 c.children = len32 c.parents := by simp [len32, h1]
    rw [List.append_nil, ← hp] at hr2
    simp [decodeParent, hr1, hr2]

theorem decodeProp_payload (slack : Bytes → Nat) (g : Map (BitVec 32) (Nat × InstChunk))
    (c : PropChunk) (h : (Body.prop c).Good g) :
    ∃ e, (Body.prop c).payload = .ok e ∧
      decodeProp slack g e = .ok ({ c with props := c.props.map Arr.canon }, []) := by
  obtain ⟨h1, i, inst, hg, h2⟩ := h
  cases hp : c.props with
  | none =>
    refine ⟨_, by simp only [Body.payload, hp, Res.pure_eq, Res.ok_bind]; rfl, ?_⟩
    simp only [decodeProp, rd_bind, num32_app, Res.ok_bind, hg, readString_app _ _ h1, takeAll,
      if_true, rd_pure, Option.map_none]
  | some a =>
    obtain ⟨e, e1, e2, e3⟩ := typeArray_roundtrip a _ (h2 a hp)
    refine ⟨_, by simp only [Body.payload, hp, e1, Res.pure_eq, Res.ok_bind]; rfl, ?_⟩
    obtain ⟨b', e4⟩ := e3 (slack e)
    simp only [decodeProp, rd_bind, num32_app, Res.ok_bind, hg, readString_app _ _ h1, takeAll,
      e2, if_false, rd_pure, Option.map_some, e4, liftRes_ok]

theorem decodeMeta_payload (vs : List (Bytes × Bytes)) (h : (Body.metadata vs).Good g) :
    ∃ e, (Body.metadata vs).payload = .ok e ∧ decodeMeta e = .ok (vs, []) := by
  obtain ⟨h1, h2⟩ := h
  refine ⟨_, rfl, ?_⟩
  have := rdMany_app_mem (rd := readPair) (enc := fun kv => writeString kv.1 ++ writeString kv.2)
    vs (by
      intro kv hkv r
      simp [readPair, readString_app _ _ (h2 kv hkv).1, readString_app _ _ (h2 kv hkv).2]) []
  rw [List.append_nil] at this
  simp only [decodeMeta, rd_bind, num32_app, Res.ok_bind, len32_toNat vs h1, this]

theorem decodeShared_payload (c : SharedChunk) (h : (Body.shared c).Good g) :
    ∃ e, (Body.shared c).payload = .ok e ∧ decodeShared e = .ok (c, []) := by
  obtain ⟨h1, h2⟩ := h
  refine ⟨_, rfl, ?_⟩
  have := rdMany_app_mem (rd := readShared) (enc := fun kv => kv.1 ++ writeString kv.2)
    c.values (by
      intro kv hkv r
      simp [readShared, takeN_app (h2 kv hkv).1, readString_app _ _ (h2 kv hkv).2]) []
  rw [List.append_nil] at this
  simp only [decodeShared, rd_bind, num32_app, Res.ok_bind, len32_toNat _ h1, this, rd_pure]

theorem decodeBody_payload (slack : Bytes → Nat) (g : Map (BitVec 32) (Nat × InstChunk))
    (b : Body) (h : b.Good g) (comp : Bool) :
    ∃ e, b.payload = .ok e ∧
      ((∃ s, b = .unknown s e ∧ decodeBody slack g ⟨b.sig, comp, e⟩ = none) ∨
       ((∀ s p, b ≠ .unknown s p) ∧ decodeBody slack g ⟨b.sig, comp, e⟩ = some (.ok b.canon))) := by
  cases b with
  | inst c =>
    obtain ⟨e, h1, h2⟩ := decodeInst_payload c h
    exact ⟨e, h1, .inr ⟨by simp, by simp [decodeBody, Body.sig, h2, Body.canon, sigINST, sigMETA, sigSSTR]⟩⟩
  | prop c =>
    obtain ⟨e, h1, h2⟩ := decodeProp_payload slack g c h
    exact ⟨e, h1, .inr ⟨by simp, by simp [decodeBody, Body.sig, h2, Body.canon, sigPROP, sigINST, sigMETA, sigSSTR]⟩⟩
  | parent c =>
    obtain ⟨e, h1, h2⟩ := decodeParent_payload c h
    exact ⟨e, h1, .inr ⟨by simp, by simp [decodeBody, Body.sig, h2, Body.canon, sigPROP, sigINST, sigMETA, sigSSTR, sigPRNT]⟩⟩
  | metadata c =>
    obtain ⟨e, h1, h2⟩ := decodeMeta_payload c h
    exact ⟨e, h1, .inr ⟨by simp, by simp [decodeBody, Body.sig, h2, Body.canon]⟩⟩
  | shared c =>
    obtain ⟨e, h1, h2⟩ := decodeShared_payload c h
    exact ⟨e, h1, .inr ⟨by simp, by simp [decodeBody, Body.sig, h2, Body.canon, sigMETA, sigSSTR]⟩⟩
  | end_ c =>
    exact ⟨c, rfl, .inr ⟨by simp, by simp [decodeBody, Body.sig, Body.canon, sigPROP, sigINST, sigMETA, sigSSTR, sigPRNT, sigEND, decodeEnd, takeAll]⟩⟩
  | unknown s p =>
    refine ⟨p, rfl, .inl ⟨s, rfl, ?_⟩⟩
    simp only [Body.Good, validChunk, Bool.or_eq_false_iff, beq_eq_false_iff_ne] at h
    simp [decodeBody, Body.sig, h]
  | errored s p => exact h.elim

/-! ### stable readers -/

/-- A reader that succeeds consumed a prefix and does not look at what follows it. -/
def Stable {α : Type} (rd : Rd α) : Prop :=
  ∀ b a r, rd b = .ok (a, r) → ∃ c, b = c ++ r ∧ ∀ s, rd (c ++ s) = .ok (a, s)

theorem Stable.pure {α : Type} (a : α) : Stable (Pure.pure a : Rd α) := by
  intro b a' r h
  simp at h
  exact ⟨[], by simp [h.2], fun s => by simp [h.1]⟩

theorem Stable.bind {α β : Type} {x : Rd α} {f : α → Rd β} (hx : Stable x)
    (hf : ∀ a, Stable (f a)) : Stable (x >>= f) := by
  intro b a r h
  simp only [rd_bind, Res.bind_eq_ok] at h
  obtain ⟨⟨a1, r1⟩, h1, h2⟩ := h
  obtain ⟨c1, e1, s1⟩ := hx _ _ _ h1
  obtain ⟨c2, e2, s2⟩ := hf _ _ _ _ h2
  simp only at e2 s2
  refine ⟨c1 ++ c2, by rw [e1, e2, List.append_assoc], fun s => ?_⟩
  simp [s1, s2]

theorem Stable.lift {α : Type} (x : Res α) : Stable (liftRes x) := by
  intro b a r h
  simp only [liftRes, Res.bind_eq_ok, Res.pure_eq, Res.ok.injEq, Prod.mk.injEq] at h
  obtain ⟨a', rfl, rfl, rfl⟩ := h
  exact ⟨[], rfl, fun s => rfl⟩

theorem stable_takeN (n : Nat) : Stable (takeN n) := by
  intro b a r h
  simp only [takeN] at h
  split at h
  · cases h
  · simp only [Res.ok.injEq, Prod.mk.injEq] at h
    obtain ⟨rfl, rfl⟩ := h
    refine ⟨b.take n, by simp, fun s => takeN_app (by simp; omega) s⟩

theorem num32_ok {b : Bytes} {v : BitVec 32} {r : Bytes} (h : num32 b = .ok (v, r)) :
    b = le32 v ++ r := by
  simp only [num32] at h
  split at h
  · cases h
  · match b, h with
    | b0 :: b1 :: b2 :: b3 :: t, h =>
      simp only [readLe32, Res.ok.injEq, Prod.mk.injEq] at h
      obtain ⟨rfl, rfl⟩ := h
      simp [le32_mk32]

theorem stable_num32 : Stable num32 := by
  intro b a r h
  exact ⟨le32 a, num32_ok h, fun s => num32_app a s⟩

theorem stable_rawDecode (lz : LZ4) : Stable (rawDecode lz) := by
  unfold rawDecode
  refine stable_num32.bind fun sig => stable_num32.bind fun cl => stable_num32.bind fun dl =>
    stable_num32.bind fun rv => ?_
  split
  · exact (stable_takeN _).bind fun _ => Stable.pure _
  split
  · exact Stable.lift _
  · exact (stable_takeN _).bind fun _ => (Stable.lift _).bind fun _ => Stable.pure _

theorem takeN_ok {n : Nat} {b a r : Bytes} (h : takeN n b = .ok (a, r)) :
    b = a ++ r ∧ a.length = n := by
  simp only [takeN] at h
  split at h
  · cases h
  · simp only [Res.ok.injEq, Prod.mk.injEq] at h
    obtain ⟨rfl, rfl⟩ := h
    exact ⟨by simp, by simp; omega⟩

/-- What a frame that was read successfully looks like. -/
theorem rawDecode_ok {lz : LZ4} (hlz : lz.Lossless) {b : Bytes} {raw : Raw} {rest : Bytes}
    (h : rawDecode lz b = .ok (raw, rest)) :
    raw.payload.length < 2 ^ 32 ∧ rest.length + 16 ≤ b.length := by
  simp only [rawDecode, rd_bind, Res.bind_eq_ok] at h
  obtain ⟨⟨sig, r1⟩, h1, ⟨cl, r2⟩, h2, ⟨dl, r3⟩, h3, ⟨rv, r4⟩, h4, h⟩ := h
  have e1 := num32_ok h1; have e2 := num32_ok h2; have e3 := num32_ok h3; have e4 := num32_ok h4
  simp only at e1 e2 e3 e4 h
  have hdl := dl.isLt
  split at h
  · simp only [rd_bind, Res.bind_eq_ok] at h
    obtain ⟨⟨p, r5⟩, h5, h⟩ := h
    simp only [rd_pure, Res.ok.injEq, Prod.mk.injEq] at h
    obtain ⟨rfl, rfl⟩ := h
    obtain ⟨e5, e6⟩ := takeN_ok h5
    subst e1 e2 e3 e4 e5
    simp; omega
  split at h
  · simp [liftRes] at h
  · simp only [rd_bind, Res.bind_eq_ok, liftRes] at h
    obtain ⟨⟨d, r5⟩, h5, ⟨p, r6⟩, ⟨p', hd, h6⟩, h⟩ := h
    simp only [rd_pure, Res.ok.injEq, Prod.mk.injEq, Res.pure_eq] at h h6
    obtain ⟨rfl, rfl⟩ := h
    obtain ⟨rfl, rfl⟩ := h6
    obtain ⟨e5, e6⟩ := takeN_ok h5
    have := hlz.dec_length _ _ _ hd
    subst e1 e2 e3 e4 e5
    simp; omega

theorem rawDecode_rawWrite {lz : LZ4} (hlz : lz.Lossless) (c : Raw) (hp : c.payload.length < 2 ^ 32)
    (e : Bytes) (h : rawWrite lz c = .ok e) (r : Bytes) :
    rawDecode lz (e ++ r) = .ok (c, r) := by
  obtain ⟨sig, comp, payload⟩ := c
  have hl := len32_toNat payload hp
  cases comp
  · simp only [rawWrite, Bool.false_eq_true, if_false, Res.pure_eq, Res.ok.injEq] at h
    subst h
    simp only [rawDecode, rd_bind, List.append_assoc, num32_app, Res.ok_bind, hl]
    simp [takeN_app]
  · simp only [rawWrite, if_true, Res.bind_eq_ok, Res.pure_eq, Res.ok.injEq] at h
    obtain ⟨data, h1, rfl⟩ := h
    obtain ⟨hne, hlt, hd⟩ := hlz.enc_ok _ _ h1
    have hdl := len32_toNat data (by omega)
    have hpos := List.length_pos_iff.2 hne
    have h0 : len32 data ≠ 0#32 := by
      intro h0; rw [h0] at hdl; simp at hdl; omega
    have h4 : ¬ (len32 data + 4#32).toNat < 4 := by
      rw [BitVec.toNat_add, hdl]; simp; omega
    simp only [rawDecode, rd_bind, List.append_assoc, num32_app, Res.ok_bind, h0, if_false, h4, hdl]
    rw [takeN_app rfl]
    simp [hd]

theorem rawDecode_frame {lz : LZ4} {sig : BitVec 32} {payload : Bytes}
    (hp : payload.length < 2 ^ 32) (r : Bytes) :
    rawDecode lz (le32 sig ++ (le32 0 ++ (le32 (len32 payload) ++ (le32 0 ++ (payload ++ r))))) =
      .ok (⟨sig, false, payload⟩, r) := by
  have hl := len32_toNat payload hp
  simp only [rawDecode, rd_bind, num32_app, Res.ok_bind, hl]
  simp [takeN_app]

end Rbxl

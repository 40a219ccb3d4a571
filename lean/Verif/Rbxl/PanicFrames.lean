import Verif.Rbxl.PanicArrays
import Verif.Rbxl.DecodeGroups
/-!
# Exactly which frames make the decoder panic
-/
namespace Rbxl
open Go Rbxfile Spec

theorem rawDecode_panic_iff {lz : LZ4} (hlz : lz.Lossless) {b : Bytes} : rawDecode lz b = .panic ↔ HugeFrame b := by
  constructor
  · intro h
    simp only [rawDecode] at h
    rw [rd_bind] at h
    rcases h1 : num32 b with ⟨sig, r1⟩ | _ | _ <;> rw [h1] at h <;> try simp only [Res.ok_bind] at h
    · rw [rd_bind] at h
      rcases h2 : num32 r1 with ⟨len, r2⟩ | _ | _ <;> rw [h2] at h <;> try simp only [Res.ok_bind] at h
      · rw [rd_bind] at h
        rcases h3 : num32 r2 with ⟨size, r3⟩ | _ | _ <;> rw [h3] at h <;> try simp only [Res.ok_bind] at h
        · rw [rd_bind] at h
          rcases h4 : num32 r3 with ⟨res, r4⟩ | _ | _ <;> rw [h4] at h <;> try simp only [Res.ok_bind] at h
          · refine ⟨sig, len, size, res, r4, ?_, ?_⟩
            · rw [← num32_ok h4, ← num32_ok h3, ← num32_ok h2, ← num32_ok h1]
            · split at h
              · exact absurd h (Res.bind_ne_panic (takeN_ne_panic _ _) fun _ _ => by simp)
              split at h
              · rename_i hz hov
                rw [BitVec.toNat_add] at hov
                simp at hov
                have := len.isLt
                omega
              · exact absurd h (Res.bind_ne_panic (takeN_ne_panic _ _) fun _ _ =>
                  Res.bind_ne_panic (liftRes_ne_panic (hlz.dec_ne_panic _ _) _) fun _ _ => by simp)
          · cases h
          · exact absurd h4 (num32_ne_panic _)
        · cases h
        · exact absurd h3 (num32_ne_panic _)
      · cases h
      · exact absurd h2 (num32_ne_panic _)
    · cases h
    · exact absurd h1 (num32_ne_panic _)
  · rintro ⟨sig, len, size, res, r, rfl, h⟩
    have hl := len.isLt
    simp only [rawDecode, rd_bind, num32_app, Res.ok_bind]
    rw [if_neg (by rintro rfl; simp at h), if_pos (by rw [BitVec.toNat_add]; simp; omega)]
    rfl

/-- The state of the chunk loop after the frames `raws`: the class table is that of the INST chunks. -/
def AfterFrames (raws : List Raw) (st : LoopState) : Prop :=
  ∀ id, (st.groups.get? id).map Prod.snd = classIn raws id

theorem classIn_snoc (raws : List Raw) (raw : Raw) (id : BitVec 32) :
    classIn (raws ++ [raw]) id = (match (if raw.sig = sigINST then
      match decodeInst raw.payload with
      | .ok (c, _) => if c.classID = id then some c else none
      | _ => none
    else none : Option InstChunk) with
    | some c => some c
    | none => classIn raws id) := by
  simp only [classIn, List.filterMap_append, List.filterMap_cons, List.filterMap_nil]
  generalize hx : (if raw.sig = sigINST then
      match decodeInst raw.payload with
      | .ok (c, _) => if c.classID = id then some c else none
      | _ => none
    else none : Option InstChunk) = x
  cases x with
  | none => simp
  | some c => simp

theorem readString_eq {b : Bytes} {s r : Bytes} : readString b = .ok (s, r) ↔
    ∃ len : BitVec 32, b = le32 len ++ (s ++ r) ∧ s.length = len.toNat := by
  simp only [readString, rd_bind]
  constructor
  · intro h
    obtain ⟨⟨len, r1⟩, h1, h⟩ := (Res.bind_eq_ok ..).1 h
    obtain ⟨h2, h3⟩ := takeN_ok h
    exact ⟨len, by rw [num32_ok h1]; exact congrArg _ h2, h3⟩
  · rintro ⟨len, rfl, h⟩
    rw [num32_app]
    simp only [Res.ok_bind]
    exact takeN_app h r

theorem decodeProp_panic_iff {slack} {groups : Map (BitVec 32) (Nat × InstChunk)} {b : Bytes} :
    decodeProp slack groups b = .panic ↔
      ∃ id len name array pos g, b = le32 id ++ (le32 len ++ (name ++ array)) ∧ name.length = len.toNat ∧
        groups.get? id = some (pos, g) ∧ CutPositions (slack array) g.ids.length array := by
  constructor
  · intro h
    simp only [decodeProp, rd_bind] at h
    rcases hn : num32 b with ⟨id, r⟩ | e | _ <;> rw [hn] at h <;> try simp only [Res.ok_bind] at h
    · rcases hg : groups.get? id with _ | ⟨pos, g⟩ <;> rw [hg] at h
      · cases h
      simp only [rd_bind] at h
      rcases hs : readString r with ⟨name, array⟩ | e | _ <;> rw [hs] at h <;> try simp only [Res.ok_bind, takeAll] at h
      · split at h
        · cases h
        obtain ⟨len, h1, h2⟩ := readString_eq.1 hs
        refine ⟨id, len, name, array, pos, g, by rw [num32_ok hn, h1], h2, hg, ?_⟩
        rw [← (typeArrayFrom_exact (slack array) g.ids.length array).1]
        rcases ha : typeArrayFrom (slack array) g.ids.length array with ⟨a, m, b'⟩ | e | _
        · rw [ha] at h; cases h
        · rw [ha] at h; cases h
        · rfl
      · cases h
      · exact absurd hs (readString_ne_panic _)
    · cases h
    · exact absurd hn (num32_ne_panic _)
  · rintro ⟨id, len, name, array, pos, g, rfl, h1, h2, h3⟩
    have hs : readString (le32 len ++ (name ++ array)) = .ok (name, array) := readString_eq.2 ⟨len, rfl, h1⟩
    simp only [decodeProp, rd_bind, num32_app, Res.ok_bind, h2, hs, takeAll]
    have hne : array ≠ [] := by rintro rfl; exact h3
    rw [if_neg hne]
    rw [← (typeArrayFrom_exact (slack array) g.ids.length array).1] at h3
    simp only [rd_bind, h3]
    rfl

theorem stepChunk_panic_iff {slack} {raws : List Raw} {st : LoopState} {raw : Raw} (ha : AfterFrames raws st) :
    stepChunk slack st raw = .panic ↔ CutFrame slack raws raw := by
  have h0 : stepChunk slack st raw = .panic ↔ decodeBody slack st.groups raw = some .panic := by
    simp only [stepChunk]
    constructor
    · intro h
      split at h
      · cases h
      · assumption
      · cases h
      · cases h
    · intro h
      rw [h]
  rw [h0]
  have h1 : decodeBody slack st.groups raw = some .panic ↔
      raw.sig = sigPROP ∧ decodeProp slack st.groups raw.payload = .panic := by
    have np : ∀ {α : Type} (f : Rd α) (k : α → Body), (∀ b, f b ≠ .panic) →
        (some (do let (a, _) ← f raw.payload; pure (k a)) : Option (Res Body)) ≠ some .panic := by
      intro α f k hf h
      simp only [Option.some.injEq] at h
      exact Res.bind_ne_panic (hf raw.payload) (fun _ _ => by simp) h
    simp only [decodeBody]
    split
    · rename_i h; rw [h]
      exact ⟨fun h => absurd h (np _ _ decodeMeta_ne_panic), fun h => absurd h.1 (by decide)⟩
    split
    · rename_i h; rw [h]
      exact ⟨fun h => absurd h (np _ _ decodeShared_ne_panic), fun h => absurd h.1 (by decide)⟩
    split
    · rename_i h; rw [h]
      exact ⟨fun h => absurd h (np _ _ decodeInst_ne_panic), fun h => absurd h.1 (by decide)⟩
    split
    · rename_i h
      rw [Option.some.injEq]
      rcases decodeProp slack st.groups raw.payload with _ | _ | _
      · exact ⟨nofun, fun h => by cases h.2⟩
      · exact ⟨nofun, fun h => by cases h.2⟩
      · exact ⟨fun _ => ⟨h, rfl⟩, fun _ => rfl⟩
    rename_i hp
    split
    · exact ⟨fun h => absurd h (np _ _ decodeParent_ne_panic), fun h => absurd h.1 hp⟩
    split
    · exact ⟨fun h => absurd h (np _ _ (fun b => by simp [decodeEnd, takeAll])), fun h => absurd h.1 hp⟩
    · exact ⟨nofun, fun h => absurd h.1 hp⟩
  rw [h1, decodeProp_panic_iff, CutFrame]
  refine and_congr_right fun _ => ?_
  constructor
  · rintro ⟨id, len, name, array, pos, g, e1, e2, e3, e4⟩
    exact ⟨id, len, name, array, g, e1, e2, by rw [← ha, e3]; rfl, e4⟩
  · rintro ⟨id, len, name, array, g, e1, e2, e3, e4⟩
    rw [← ha] at e3
    obtain ⟨⟨pos, g'⟩, e5, rfl⟩ := Option.map_eq_some_iff.1 e3
    exact ⟨id, len, name, array, pos, g', e1, e2, e5, e4⟩

theorem stepChunk_after {slack} {raws : List Raw} {st st' : LoopState} {raw : Raw} {fl : Bool} (ha : AfterFrames raws st)
    (e : stepChunk slack st raw = .ok (st', fl)) : AfterFrames (raws ++ [raw]) st' := by
  have key : ∀ id, classIn (raws ++ [raw]) id = (match (if raw.sig = sigINST then
      match decodeInst raw.payload with
      | .ok (c, _) => if c.classID = id then some c else none
      | _ => none
    else none : Option InstChunk) with
    | some c => some c
    | none => (st.groups.get? id).map Prod.snd) := by
    intro id
    rw [classIn_snoc, ha]
  have hb : (∃ c r, raw.sig = sigINST ∧ decodeInst raw.payload = .ok (c, r) ∧ st'.groups = st.groups.set c.classID (st.chunks.length, c)) ∨
      (st'.groups = st.groups ∧ (raw.sig = sigINST → ∀ c r, decodeInst raw.payload ≠ .ok (c, r))) := by
    by_cases hs : raw.sig = sigINST
    · have hd : decodeBody slack st.groups raw = some (do let (a, _) ← decodeInst raw.payload; pure (.inst a)) := by
        simp only [decodeBody]
        rw [if_neg (by rw [hs]; decide), if_neg (by rw [hs]; decide), if_pos hs]
      simp only [stepChunk] at e
      rw [hd] at e
      rcases hi : decodeInst raw.payload with ⟨c, r⟩ | _ | _ <;> rw [hi] at e
      · refine .inl ⟨c, r, hs, rfl, ?_⟩
        cases e
        rfl
      · refine .inr ⟨?_, nofun⟩
        cases e
        rfl
      · cases e
    · refine .inr ⟨?_, fun h => absurd h hs⟩
      obtain ⟨c, h1, h2, h3⟩ := stepChunk_push e
      simp only [stepChunk] at e
      split at e
      · cases e; rfl
      · cases e
      · cases e; rfl
      · rename_i body hbody
        have : ∀ g, body ≠ .inst g := by
          rintro g rfl
          have wrong : ∀ {α : Type} {f : Rd α} {k : α → Body} {x : Body}, (∀ a, k a ≠ x) →
              some (do let (a, _) ← f raw.payload; pure (k a)) ≠ some (Res.ok x) := by
            intro α f k x hk e
            rw [Option.some.injEq] at e
            obtain ⟨⟨a, r⟩, -, e⟩ := (Res.bind_eq_ok ..).1 e
            exact hk a (Res.ok.inj e)
          simp only [decodeBody] at hbody
          rw [if_neg hs] at hbody
          revert hbody
          repeat' split
          all_goals
            first
            | exact wrong (fun a h => by cases h)
            | (intro h; cases h)
        cases e
        cases body <;> first | rfl | exact absurd rfl (this _)
  intro id
  rw [key]
  rcases hb with ⟨c, r, h1, h2, h3⟩ | ⟨h1, h2⟩
  · rw [h3, if_pos h1, h2]
    simp only
    rw [Map.get?_set]
    by_cases hc : c.classID = id
    · rw [if_pos hc, if_pos hc.symm]
      rfl
    · rw [if_neg hc, if_neg (fun h => hc h.symm)]
  · rw [h1]
    by_cases hs : raw.sig = sigINST
    · rw [if_pos hs]
      rcases hi : decodeInst raw.payload with ⟨c, r⟩ | _ | _
      · exact absurd hi (h2 hs c r)
      · rfl
      · rfl
    · rw [if_neg hs]

/-- The frames from `b` on, after the frames `raws`, contain one that makes the decoder panic. -/
def PanicsFrom (lz : LZ4) (slack : Bytes → Nat) (raws : List Raw) (b : Bytes) : Prop :=
  ∃ more b', ReadsFrames lz b more b' ∧ (HugeFrame b' ∨ ∃ raw r, rawDecode lz b' = .ok (raw, r) ∧ CutFrame slack (raws ++ more) raw)

theorem _root_.Spec.ReadsFrames.cons {lz : LZ4} {b b' b'' : Bytes} {raw : Raw} {more : List Raw} (h1 : rawDecode lz b = .ok (raw, b'))
    (h2 : raw.sig ≠ sigEND) (h : ReadsFrames lz b' more b'') : ReadsFrames lz b (raw :: more) b'' := by
  induction h with
  | nil => exact ReadsFrames.snoc (raws := []) .nil h1 h2
  | snoc _ g1 g2 ih => exact ReadsFrames.snoc (raws := _ :: _) ih g1 g2

theorem _root_.Spec.ReadsFrames.uncons {lz : LZ4} {b b'' : Bytes} {more : List Raw} (h : ReadsFrames lz b more b'') :
    (more = [] ∧ b'' = b) ∨ ∃ raw b' rest, more = raw :: rest ∧ rawDecode lz b = .ok (raw, b') ∧ raw.sig ≠ sigEND ∧
      ReadsFrames lz b' rest b'' := by
  induction h with
  | nil => exact .inl ⟨rfl, rfl⟩
  | snoc hr g1 g2 ih =>
    right
    rcases ih with ⟨rfl, rfl⟩ | ⟨raw, b', rest, rfl, k1, k2, k3⟩
    · exact ⟨_, _, [], rfl, g1, g2, .nil⟩
    · exact ⟨raw, b', rest ++ [_], rfl, k1, k2, .snoc k3 g1 g2⟩

theorem decodeChunks_panic_iff {lz : LZ4} (hlz : lz.Lossless) {slack} : ∀ (fuel : Nat) (raws : List Raw) (st : LoopState)
    (b : Bytes), b.length < fuel → AfterFrames raws st →
    ((decodeChunks lz slack fuel st b).2 = .panic ↔ PanicsFrom lz slack raws b) := by
  intro fuel
  induction fuel with
  | zero => intro raws st b h; omega
  | succ fuel ih =>
    intro raws st b hlen ha
    simp only [decodeChunks]
    have hraw := rawDecode_panic_iff hlz (b := b)
    have none_ : (∀ raw r, rawDecode lz b ≠ .ok (raw, r)) → (PanicsFrom lz slack raws b ↔ HugeFrame b) := by
      intro hno
      constructor
      · rintro ⟨more, b', h1, h2⟩
        rcases h1.uncons with ⟨rfl, rfl⟩ | ⟨raw, b2, rest, rfl, g1, g2, g3⟩
        · rcases h2 with h2 | ⟨raw, r, h2, _⟩
          · exact h2
          · exact absurd h2 (hno _ _)
        · exact absurd g1 (hno _ _)
      · intro h
        exact ⟨[], b, .nil, .inl h⟩
    rcases hd : rawDecode lz b with ⟨raw, rest⟩ | e | _
    · rw [hd] at hraw
      have hnh : ¬ HugeFrame b := fun h => by cases hraw.2 h
      have hp := stepChunk_panic_iff (slack := slack) (raw := raw) ha
      have hfl := (stepChunk_flag (slack := slack) (st := st) (raw := raw)).1
      have split_ : raw.sig ≠ sigEND → (PanicsFrom lz slack raws b ↔ CutFrame slack raws raw ∨ PanicsFrom lz slack (raws ++ [raw]) rest) := by
        intro hne
        constructor
        · rintro ⟨more, b', h1, h2⟩
          rcases h1.uncons with ⟨rfl, rfl⟩ | ⟨raw', b2, rest', rfl, g1, g2, g3⟩
          · rcases h2 with h2 | ⟨raw', r, h2, h3⟩
            · exact absurd h2 hnh
            · rw [hd] at h2
              cases h2
              exact .inl (by simpa using h3)
          · rw [hd] at g1
            cases g1
            exact .inr ⟨rest', b', g3, by simpa using h2⟩
        · rintro (h | ⟨more, b', h1, h2⟩)
          · exact ⟨[], b, .nil, .inr ⟨raw, rest, hd, by simpa using h⟩⟩
          · exact ⟨raw :: more, b', .cons hd hne h1, by simpa using h2⟩
      rcases hs : stepChunk slack st raw with ⟨st1, _ | _⟩ | e | _ <;> simp only [hs]
      · rw [hs] at hp
        have hne : raw.sig ≠ sigEND := by have := hfl _ _ hs; simpa using this
        rw [ih (raws ++ [raw]) st1 rest (by have := (rawDecode_ok hlz hd).2; omega) (stepChunk_after ha hs), split_ hne]
        constructor
        · exact .inr
        · rintro (h | h)
          · cases hp.2 h
          · exact h
      · have hend : raw.sig = sigEND := by have := hfl _ _ hs; simpa using this
        refine ⟨nofun, ?_⟩
        rintro ⟨more, b', h1, h2⟩
        rcases h1.uncons with ⟨rfl, rfl⟩ | ⟨raw', b2, rest', rfl, g1, g2, g3⟩
        · rcases h2 with h2 | ⟨raw', r, h2, h3⟩
          · exact absurd h2 hnh
          · rw [hd] at h2
            cases h2
            have := h3.1
            rw [hend] at this
            exact absurd this (by decide)
        · rw [hd] at g1
          cases g1
          exact absurd hend g2
      · simp only [stepChunk] at hs
        split at hs <;> cases hs
      · rw [hs] at hp
        refine ⟨fun _ => ?_, fun _ => trivial⟩
        exact ⟨[], b, .nil, .inr ⟨raw, rest, hd, by simpa using hp.1 rfl⟩⟩
    · rw [none_ (by rw [hd]; nofun), ← hraw, hd]
      exact ⟨nofun, nofun⟩
    · rw [none_ (by rw [hd]; nofun), ← hraw, hd]
      exact ⟨fun _ => rfl, fun _ => rfl⟩

/-- The frames from `b` on, after the frames `raws`, can be read up to an END chunk, and none has cut CFrames. -/
def EndsFrom (lz : LZ4) (slack : Bytes → Nat) (raws : List Raw) (b : Bytes) : Prop :=
  ∃ more b' raw r, ReadsFrames lz b more b' ∧ rawDecode lz b' = .ok (raw, r) ∧ raw.sig = sigEND ∧
    ∀ pre c post, more = pre ++ c :: post → ¬ CutFrame slack (raws ++ pre) c

theorem decodeChunks_ok_iff {lz : LZ4} (hlz : lz.Lossless) {slack} : ∀ (fuel : Nat) (raws : List Raw) (st : LoopState)
    (b : Bytes), b.length < fuel → AfterFrames raws st →
    ((∃ t, (decodeChunks lz slack fuel st b).2 = .ok t) ↔ EndsFrom lz slack raws b) := by
  intro fuel
  induction fuel with
  | zero => intro raws st b h; omega
  | succ fuel ih =>
    intro raws st b hlen ha
    simp only [decodeChunks]
    have none_ : (∀ raw r, rawDecode lz b ≠ .ok (raw, r)) → ¬ EndsFrom lz slack raws b := by
      rintro hno ⟨more, b', raw, r, h1, h2, -⟩
      rcases h1.uncons with ⟨rfl, rfl⟩ | ⟨raw', b2, rest, rfl, g1, -, -⟩
      · exact hno _ _ h2
      · exact hno _ _ g1
    rcases hd : rawDecode lz b with ⟨raw, rest⟩ | e | _
    · have hp := stepChunk_panic_iff (slack := slack) (raw := raw) ha
      have hfl := (stepChunk_flag (slack := slack) (st := st) (raw := raw)).1
      have split_ : raw.sig ≠ sigEND → (EndsFrom lz slack raws b ↔ ¬ CutFrame slack raws raw ∧ EndsFrom lz slack (raws ++ [raw]) rest) := by
        intro hne
        constructor
        · rintro ⟨more, b', raw', r, h1, h2, h3, h4⟩
          rcases h1.uncons with ⟨rfl, rfl⟩ | ⟨raw', b2, rest', rfl, g1, g2, g3⟩
          · rw [hd] at h2
            cases h2
            exact absurd h3 hne
          · rw [hd] at g1
            cases g1
            refine ⟨by simpa using h4 [] raw rest' rfl, rest', b', _, r, g3, h2, h3, ?_⟩
            rintro pre c post rfl
            simpa using h4 (raw :: pre) c post rfl
        · rintro ⟨h, more, b', raw', r, h1, h2, h3, h4⟩
          refine ⟨raw :: more, b', raw', r, .cons hd hne h1, h2, h3, ?_⟩
          intro pre c post e
          cases pre with
          | nil =>
            simp only [List.nil_append, List.cons.injEq] at e
            obtain ⟨rfl, rfl⟩ := e
            simpa using h
          | cons d pre =>
            simp only [List.cons_append, List.cons.injEq] at e
            obtain ⟨rfl, rfl⟩ := e
            simpa using h4 pre c post rfl
      rcases hs : stepChunk slack st raw with ⟨st1, _ | _⟩ | e | _ <;> simp only [hs]
      · rw [hs] at hp
        have hne : raw.sig ≠ sigEND := by have := hfl _ _ hs; simpa using this
        rw [ih (raws ++ [raw]) st1 rest (by have := (rawDecode_ok hlz hd).2; omega) (stepChunk_after ha hs), split_ hne]
        exact ⟨fun h => ⟨fun h' => (by cases hp.2 h'), h⟩, fun h => h.2⟩
      · have hend : raw.sig = sigEND := by have := hfl _ _ hs; simpa using this
        refine ⟨fun _ => ⟨[], b, raw, rest, .nil, hd, hend, fun pre c post e => by simp at e⟩, fun _ => ⟨_, rfl⟩⟩
      · simp only [stepChunk] at hs
        split at hs <;> cases hs
      · rw [hs] at hp
        have hc := hp.1 rfl
        have hne : raw.sig ≠ sigEND := by rw [hc.1]; decide
        rw [split_ hne]
        exact ⟨fun ⟨t, h⟩ => (by cases h), fun h => absurd hc h.1⟩
    · exact ⟨fun ⟨t, h⟩ => (by cases h), fun h => absurd h (none_ (by rw [hd]; exact nofun))⟩
    · exact ⟨fun ⟨t, h⟩ => (by cases h), fun h => absurd h (none_ (by rw [hd]; exact nofun))⟩

end Rbxl

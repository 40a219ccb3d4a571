import Verif.Rbxl.PartialLemmas
import Verif.Rbxl.NoPanic
import Verif.Rbxl.DumpLemmas
/-!
# What is decoded has values of the types of its arrays
-/
namespace Rbxl
open Go Spec

theorem cframeHeads_length : ∀ (n i : Nat) (b : Bytes) hs r m, cframeHeads i n b = .ok (hs, r, m) → hs.length = n
  | 0, _, _, hs, r, m, h => by cases h; rfl
  | n + 1, i, b, hs, r, m, h => by
    simp only [cframeHeads] at h
    obtain ⟨⟨c, b', _⟩, _, h⟩ := (Res.bind_eq_ok ..).1 h
    obtain ⟨⟨⟨rot, k⟩, b''⟩, _, h⟩ := (Res.bind_eq_ok ..).1 h
    obtain ⟨⟨hs', b3, m'⟩, h1, h⟩ := (Res.bind_eq_ok ..).1 h
    cases h
    rw [List.length_cons, cframeHeads_length n _ _ _ _ _ h1]

theorem cframeQuatHeads_length : ∀ (n i : Nat) (b : Bytes) hs r m, cframeQuatHeads i n b = .ok (hs, r, m) → hs.length = n
  | 0, _, _, hs, r, m, h => by cases h; rfl
  | n + 1, i, b, hs, r, m, h => by
    simp only [cframeQuatHeads] at h
    obtain ⟨⟨c, b', _⟩, _, h⟩ := (Res.bind_eq_ok ..).1 h
    obtain ⟨⟨⟨rot, k⟩, b''⟩, _, h⟩ := (Res.bind_eq_ok ..).1 h
    obtain ⟨⟨hs', b3, m'⟩, h1, h⟩ := (Res.bind_eq_ok ..).1 h
    cases h
    rw [List.length_cons, cframeQuatHeads_length n _ _ _ _ _ h1]

theorem positionsFrom_length : ∀ (n i : Nat) (b : Bytes) vs m, positionsFrom i n b = .ok (vs, m) → vs.length = n
  | 0, _, _, vs, m, h => by cases h; rfl
  | n + 1, i, b, vs, m, h => by
    simp only [positionsFrom] at h
    obtain ⟨⟨v, nn⟩, _, h⟩ := (Res.bind_eq_ok ..).1 h
    obtain ⟨⟨vs', m'⟩, h1, h⟩ := (Res.bind_eq_ok ..).1 h
    cases h
    rw [List.length_cons, positionsFrom_length n _ _ _ _ h1]

theorem plainFrom_typed {slack : Nat} {t : TypeID} (ht : t ≠ .optional) {n : Nat} {b : Bytes} {vs : List Val} {m : Nat} {b' : Bytes}
    (h : plainFrom slack t n b = .ok (vs, m, b')) : vs.length = n ∧ Typed t vs := by
  by_cases h1 : t = .cframe
  · subst h1
    simp only [plainFrom] at h
    obtain ⟨b1, _, h⟩ := (Res.bind_eq_ok ..).1 h
    obtain ⟨⟨hs, r, m1⟩, e1, h⟩ := (Res.bind_eq_ok ..).1 h
    obtain ⟨r', _, h⟩ := (Res.bind_eq_ok ..).1 h
    obtain ⟨⟨ps, k⟩, e2, h⟩ := (Res.bind_eq_ok ..).1 h
    cases h
    refine ⟨by simp [cframeHeads_length _ _ _ _ _ _ e1, positionsFrom_length _ _ _ _ _ e2], fun v hv => ?_⟩
    obtain ⟨x, _, rfl⟩ := List.mem_map.1 hv
    rfl
  by_cases h2 : t = .cframeQuat
  · subst h2
    simp only [plainFrom] at h
    obtain ⟨b1, _, h⟩ := (Res.bind_eq_ok ..).1 h
    obtain ⟨⟨hs, r, m1⟩, e1, h⟩ := (Res.bind_eq_ok ..).1 h
    obtain ⟨r', _, h⟩ := (Res.bind_eq_ok ..).1 h
    obtain ⟨⟨ps, k⟩, e2, h⟩ := (Res.bind_eq_ok ..).1 h
    cases h
    refine ⟨by simp [cframeQuatHeads_length _ _ _ _ _ _ e1, positionsFrom_length _ _ _ _ _ e2], fun v hv => ?_⟩
    obtain ⟨x, _, rfl⟩ := List.mem_map.1 hv
    rfl
  exact (plainFrom_ok ⟨h1, h2, ht⟩ n b).2 _ _ _ h

theorem presentFrom_length {n : Nat} {b : Bytes} {ps : List Bool} {m : Nat} (h : presentFrom n b = .ok (ps, m)) : ps.length = n := by
  cases b with
  | nil => cases h
  | cons tb b =>
    simp only [presentFrom] at h
    split at h
    · cases h
    · split at h
      · cases h
      · obtain ⟨⟨vs, k⟩, e1, h⟩ := (Res.bind_eq_ok ..).1 h
        cases h
        rw [List.length_map, ((elemsFrom_ok (by simp) n 0 b).2 _ _ e1).1]

theorem typeArrayFrom_len {slack n : Nat} : ∀ {b : Bytes} {a : Arr} {m : Nat} {b' : Bytes}, typeArrayFrom slack n b = .ok (a, m, b') →
    (∃ t vs, a = .plain t vs ∧ t ≠ .optional ∧ vs.length = n ∧ Typed t vs) ∨ (∃ v ps, a = .optional v ps ∧ ps.length = n ∧
      (∀ t vs, v = .plain t vs → t ≠ .optional ∧ vs.length = n ∧ Typed t vs))
  | [], a, m, b', h => by cases h
  | tb :: rest, a, m, b', h => by
    simp only [typeArrayFrom] at h
    split at h
    · cases h
    · split at h
      · cases h
      · obtain ⟨⟨v, nn, r⟩, e1, h⟩ := (Res.bind_eq_ok ..).1 h
        obtain ⟨⟨ps, mm⟩, e2, h⟩ := (Res.bind_eq_ok ..).1 h
        cases h
        refine .inr ⟨_, _, rfl, presentFrom_length e2, ?_⟩
        rintro t vs rfl
        rcases typeArrayFrom_len e1 with ⟨t', vs', h1, h2⟩ | ⟨_, _, h1, _⟩
        · cases h1; exact h2
        · cases h1
      · rename_i t hno ht
        obtain ⟨⟨vs, nn, r⟩, e1, h⟩ := (Res.bind_eq_ok ..).1 h
        cases h
        have hto : t ≠ .optional := fun e => hno e
        exact .inl ⟨_, _, rfl, hto, plainFrom_typed hto e1⟩

theorem typeArrayFrom_plain {slack n : Nat} {b : Bytes} {a : Arr} {m : Nat} {b' : Bytes} (h : typeArrayFrom slack n b = .ok (a, m, b'))
    (hn : ¬ nestedOptional a) : plainArr a := by
  rcases typeArrayFrom_len h with ⟨t, vs, rfl, h1, h2, h3⟩ | ⟨v, ps, rfl, h1, h2⟩
  · exact ⟨h1, h3⟩
  · rcases v with ⟨t, vs⟩ | _ | _
    · obtain ⟨h3, h4, h5⟩ := h2 t vs rfl
      exact ⟨h3, h5, by rw [h1, h4]⟩
    · exact absurd trivial hn
    · exact absurd trivial hn

theorem refArrayFrom_length {b : Bytes} {n : Nat} {l : List (BitVec 32)} (h : refArrayFrom b n = .ok l) : l.length = n := by
  simp only [refArrayFrom] at h
  obtain ⟨⟨vs, m, b'⟩, e, h⟩ := (Res.bind_eq_ok ..).1 h
  cases h
  rw [List.length_map, (plainFrom_typed (by simp) e).1]

theorem readRefs_length {n : BitVec 32} {b : Bytes} {l : List (BitVec 32)} {r : Bytes} (h : readRefs n b = .ok (l, r)) : l.length = n.toNat := by
  unfold readRefs at h
  by_cases h0 : n = 0#32
  · rw [if_pos h0] at h
    cases h
    subst h0; rfl
  · rw [if_neg h0, rd_bind] at h
    obtain ⟨⟨raw, b1⟩, _, h⟩ := (Res.bind_eq_ok ..).1 h
    simp only [liftRes] at h
    obtain ⟨l', e, h⟩ := (Res.bind_eq_ok ..).1 h
    cases h
    exact refArrayFrom_length e

theorem decodeInst_service {b : Bytes} {c : InstChunk} {r : Bytes} (h : decodeInst b = .ok (c, r)) :
    c.isService = true → c.getService.length = c.ids.length := by
  intro hs
  simp only [decodeInst, rd_bind] at h
  obtain ⟨⟨x1, b1⟩, _, h⟩ := (Res.bind_eq_ok ..).1 h
  obtain ⟨⟨x2, b2⟩, _, h⟩ := (Res.bind_eq_ok ..).1 h
  obtain ⟨⟨x3, b3⟩, _, h⟩ := (Res.bind_eq_ok ..).1 h
  obtain ⟨⟨x4, b4⟩, _, h⟩ := (Res.bind_eq_ok ..).1 h
  obtain ⟨⟨ids, b5⟩, e5, h⟩ := (Res.bind_eq_ok ..).1 h
  simp only at h e5
  split at h
  · rw [rd_bind] at h
    obtain ⟨⟨gs, b6⟩, e6, h⟩ := (Res.bind_eq_ok ..).1 h
    cases h
    rw [readRefs_length e5]
    simp only [takeN] at e6
    split at e6
    · cases e6
    · cases e6; simp; omega
  · cases h; cases hs

theorem decodeProp_plain {slack : Bytes → Nat} {g} {b : Bytes} {p : PropChunk} {r : Bytes} (h : decodeProp slack g b = .ok (p, r))
    (a : Arr) (ha : p.props = some a) (hn : ¬ nestedOptional a) : plainArr a := by
  simp only [decodeProp, rd_bind] at h
  obtain ⟨⟨id, b1⟩, _, h⟩ := (Res.bind_eq_ok ..).1 h
  rcases hg : g.get? id with _ | ⟨i, inst⟩
  · simp only [hg, liftRes] at h
    cases h
  · simp only [hg] at h
    rw [rd_bind] at h
    obtain ⟨⟨name, b2⟩, _, h⟩ := (Res.bind_eq_ok ..).1 h
    rw [rd_bind] at h
    obtain ⟨⟨raw, b3⟩, _, h⟩ := (Res.bind_eq_ok ..).1 h
    simp only at h
    split at h
    · cases h; cases ha
    · rw [rd_bind] at h
      obtain ⟨⟨⟨a', m, b'⟩, b4⟩, e, h⟩ := (Res.bind_eq_ok ..).1 h
      cases h
      cases ha
      simp only [liftRes] at e
      obtain ⟨x, e1, e2⟩ := (Res.bind_eq_ok ..).1 e
      cases e2
      exact typeArrayFrom_plain e1 hn

/-- A chunk of a decoded file that has not failed and has no optionals of optionals. -/
def PlainUnless (b : Body) : Prop :=
  (∀ sig bytes, b ≠ .errored sig bytes) → (∀ p a, b = .prop p → p.props = some a → ¬ nestedOptional a) → plainBody b

theorem decodeBody_plain {slack : Bytes → Nat} {g} {raw : Raw} {b : Body} (h : decodeBody slack g raw = some (.ok b)) : PlainUnless b := by
  have run : ∀ {α : Type} {f : Rd α} {k : α → Body}, (some (do let (a, _) ← f raw.payload; pure (k a)) : Option (Res Body)) = some (.ok b) →
      ∃ x r, f raw.payload = .ok (x, r) ∧ k x = b := by
    intro α f k h
    simp only [Option.some.injEq] at h
    obtain ⟨⟨x, r⟩, e, h⟩ := (Res.bind_eq_ok ..).1 h
    cases h
    exact ⟨x, r, e, rfl⟩
  intro _ hn
  simp only [decodeBody] at h
  split at h
  · obtain ⟨x, r, e, rfl⟩ := run h; trivial
  split at h
  · obtain ⟨x, r, e, rfl⟩ := run h; trivial
  split at h
  · obtain ⟨x, r, e, rfl⟩ := run h; exact decodeInst_service e
  split at h
  · obtain ⟨x, r, e, rfl⟩ := run h
    exact fun a ha => decodeProp_plain e a ha (hn x a rfl ha)
  split at h
  · obtain ⟨x, r, e, rfl⟩ := run h; trivial
  split at h
  · obtain ⟨x, r, e, rfl⟩ := run h; trivial
  · cases h

theorem stepChunk_plain {slack : Bytes → Nat} {st st' : LoopState} {raw : Raw} {f : Bool} (h : stepChunk slack st raw = .ok (st', f))
    (hs : ∀ c ∈ st.chunks, PlainUnless c.body) : ∀ c ∈ st'.chunks, PlainUnless c.body := by
  simp only [stepChunk] at h
  split at h
  · rename_i hb
    simp only [Res.ok.injEq, Prod.mk.injEq] at h
    obtain ⟨rfl, _⟩ := h
    intro c hc
    rcases List.mem_append.1 hc with hc | hc
    · exact hs c hc
    · rw [List.mem_singleton.1 hc]
      intro _ _
      simp only [decodeBody] at hb
      split at hb; · cases hb
      split at hb; · cases hb
      split at hb; · cases hb
      split at hb; · cases hb
      split at hb; · cases hb
      split at hb; · cases hb
      exact ⟨by assumption, by assumption, by assumption, by assumption, by assumption, by assumption⟩
  · cases h
  · simp only [Res.ok.injEq, Prod.mk.injEq] at h
    obtain ⟨rfl, _⟩ := h
    intro c hc
    rcases List.mem_append.1 hc with hc | hc
    · exact hs c hc
    · rw [List.mem_singleton.1 hc]
      intro he
      exact absurd rfl (he _ _)
  · rename_i body hb
    simp only [Res.ok.injEq, Prod.mk.injEq] at h
    obtain ⟨rfl, _⟩ := h
    intro c hc
    rcases List.mem_append.1 hc with hc | hc
    · exact hs c hc
    · rw [List.mem_singleton.1 hc]
      exact decodeBody_plain hb

theorem decodeChunks_plain {lz : LZ4} {slack : Bytes → Nat} : ∀ (fuel : Nat) (st : LoopState) (b : Bytes),
    (∀ c ∈ st.chunks, PlainUnless c.body) → ∀ c ∈ (decodeChunks lz slack fuel st b).1.chunks, PlainUnless c.body
  | 0, _, _, hs => hs
  | fuel + 1, st, b, hs => by
    unfold decodeChunks
    split
    · exact hs
    · exact hs
    · split
      · exact hs
      · exact hs
      · rename_i h; exact stepChunk_plain h hs
      · rename_i h; exact decodeChunks_plain fuel _ _ (stepChunk_plain h hs)

/-- The chunks of a decoded file. -/
theorem decoded_plain {lz : LZ4} {slack : Bytes → Nat} {noXML : Bool} {b : Bytes} {f : FormatModel}
    (h : (decodeFile lz slack noXML false b).2.2 = .ok (.model f)) (hw : wellDecoded f) : ∀ c ∈ f.chunks, plainBody c.body := by
  unfold decodeFile at h
  split at h
  · cases h
  · cases h
  · cases h
  · rename_i cc ic res rest _
    simp only [Bool.false_eq_true, if_false] at h
    split at h
    · cases h
    · cases h
    · cases h
      intro c hc
      obtain ⟨h1, h2⟩ := hw c hc
      exact decodeChunks_plain _ _ _ (by simp) c hc h1 h2

theorem groupsAfter_snoc : ∀ (l : List Chunk) (i : Nat) (g : Map (BitVec 32) (Nat × InstChunk)) (c : Chunk),
    lookupAfter i g (l ++ [c]) = addGroup (i + l.length) (lookupAfter i g l) c.body
  | [], i, g, c => rfl
  | d :: l, i, g, c => by
    rw [List.cons_append, lookupAfter, groupsAfter_snoc l, lookupAfter, List.length_cons, Nat.add_right_comm, Nat.add_assoc]

/-- What the loop of the decoder keeps: the groups are those of the chunks so far, and each errored chunk was one that could not be
decoded with the groups at that place. -/
def DumpLoop (slack : Bytes → Nat) (st : LoopState) : Prop := st.groups = lookupAfter 0 [] st.chunks ∧
  ∀ before c after sig bytes, st.chunks = before ++ c :: after → c.body = .errored sig bytes →
    ∃ e, decodeBody slack (lookupAfter 0 [] before) ⟨sig, c.compressed, bytes⟩ = some (.err e)

theorem snoc_parts {α : Type} {l before after : List α} {c x : α} (h : l ++ [x] = before ++ c :: after) :
    (after = [] ∧ before = l ∧ c = x) ∨ ∃ after', after = after' ++ [x] ∧ l = before ++ c :: after' := by
  rcases List.eq_nil_or_concat after with rfl | ⟨after, y, rfl⟩
  · obtain ⟨h1, h2⟩ := List.append_inj' h rfl
    simp only [List.cons.injEq, and_true] at h2
    exact .inl ⟨rfl, h1.symm, h2.symm⟩
  · have h' : l ++ [x] = (before ++ c :: after) ++ [y] := by rw [h]; simp
    obtain ⟨h1, h2⟩ := List.append_inj' h' rfl
    simp only [List.cons.injEq, and_true] at h2
    exact .inr ⟨after, by rw [h2, List.concat_eq_append], h1⟩

theorem decodeBody_not_errored {slack : Bytes → Nat} {g : Map (BitVec 32) (Nat × InstChunk)} {raw : Raw} (sig : BitVec 32) (bytes : Bytes) :
    decodeBody slack g raw ≠ some (.ok (.errored sig bytes)) := by
  intro h
  have := partBody_ok (spill := fun _ b => b) h
  unfold partBody at this
  repeat' split at this
  all_goals cases this

theorem stepChunk_dumpLoop {slack : Bytes → Nat} {st st' : LoopState} {raw : Raw} {z : Bool} (h : stepChunk slack st raw = .ok (st', z))
    (hs : DumpLoop slack st) : DumpLoop slack st' := by
  obtain ⟨h1, h2⟩ := hs
  have push : ∀ (x : Body) (g : Map (BitVec 32) (Nat × InstChunk)), g = addGroup st.chunks.length st.groups x →
      (∀ sig bytes, x = .errored sig bytes → ∃ e, decodeBody slack st.groups ⟨sig, raw.compressed, bytes⟩ = some (.err e)) →
      ∀ st'' : LoopState, st''.chunks = st.chunks ++ [⟨x, raw.compressed⟩] → st''.groups = g → DumpLoop slack st'' := by
    intro x g hg hx st'' hc hg'
    refine ⟨by rw [hg', hg, hc, groupsAfter_snoc, ← h1, Nat.zero_add], ?_⟩
    intro before c after sig bytes he hb
    rw [hc] at he
    obtain ⟨-, rfl, rfl⟩ | ⟨after', -, he⟩ := snoc_parts he
    · obtain ⟨e, h⟩ := hx sig bytes hb
      exact ⟨e, by rw [← h1]; exact h⟩
    · exact h2 before c after' sig bytes he hb
  unfold stepChunk at h
  simp only at h
  split at h
  · simp only [Res.ok.injEq, Prod.mk.injEq] at h
    obtain ⟨rfl, -⟩ := h
    exact push _ _ rfl (fun _ _ h => by cases h) _ rfl rfl
  · cases h
  · rename_i e hb
    simp only [Res.ok.injEq, Prod.mk.injEq] at h
    obtain ⟨rfl, -⟩ := h
    refine push _ _ rfl ?_ _ rfl rfl
    rintro sig bytes ⟨⟩
    exact ⟨e, hb⟩
  · rename_i body hb
    simp only [Res.ok.injEq, Prod.mk.injEq] at h
    obtain ⟨rfl, -⟩ := h
    refine push body _ ?_ ?_ _ rfl rfl
    · cases body <;> rfl
    · rintro sig bytes rfl
      exact absurd hb (decodeBody_not_errored sig bytes)

theorem decodeChunks_dumpLoop {lz : LZ4} {slack : Bytes → Nat} : ∀ (fuel : Nat) (st : LoopState) (b : Bytes),
    DumpLoop slack st → DumpLoop slack (decodeChunks lz slack fuel st b).1
  | 0, _, _, hs => hs
  | fuel + 1, st, b, hs => by
    unfold decodeChunks
    split
    · exact hs
    · exact hs
    · split
      · exact hs
      · exact hs
      · rename_i h; exact stepChunk_dumpLoop h hs
      · rename_i h; exact decodeChunks_dumpLoop fuel _ _ (stepChunk_dumpLoop h hs)

/-- The groups that the dump uses for an errored chunk are those with which it could not be decoded. -/
theorem decoded_groups {lz : LZ4} {slack : Bytes → Nat} {noXML : Bool} {b : Bytes} {f : FormatModel}
    (h : (decodeFile lz slack noXML false b).2.2 = .ok (.model f)) : f.groupLookup = lookupAfter 0 [] f.chunks ∧
    ∀ before c after sig bytes, f.chunks = before ++ c :: after → c.body = .errored sig bytes →
      ∃ e, decodeBody slack (lookupAfter 0 [] before) ⟨sig, c.compressed, bytes⟩ = some (.err e) := by
  unfold decodeFile at h
  split at h
  · cases h
  · cases h
  · cases h
  · simp only [Bool.false_eq_true, if_false] at h
    split at h
    · cases h
    · cases h
    · cases h
      exact decodeChunks_dumpLoop _ _ _ ⟨rfl, by intro before c after sig bytes he; simp at he⟩

end Rbxl

import Verif.Rbxl.CutValues
import Verif.Rbxl.Dump
import Verif.Props.Dump
/-!
# C105: the dump of a chunk whose payload is cut off
-/
namespace Props
open Go Rbxl Spec

/-- C105: if the payload of a chunk could be decoded with some bytes after it, then the chunk is kept as it would be with them, with
zeros for what they would tell; for all chunks but those of properties whose elements are interleaved. -/
theorem C105_chunk_partial (spill : Nat → Bytes → Bytes) (slack slack' : Bytes → Nat) (groups : Map (BitVec 32) (Nat × InstChunk))
    (sig : BitVec 32) (z : Bool) (p t : Bytes) (b : Body) (h : decodeBody slack groups ⟨sig, z, p ++ t⟩ = some (.ok b)) (hb : CutInOrder b) :
    (Body.errored sig p).decoded spill slack' groups = toldBody p.length b := by
  have run : ∀ {α : Type} {f : Rd α} {k : α → Body} {x : Bytes}, (some (do let (a, _) ← f x; pure (k a)) : Option (Res Body)) = some (.ok b) →
      ∃ a r, f x = .ok (a, r) ∧ k a = b := by
    intro α f k x hx
    simp only [Option.some.injEq, Res.bind_eq_ok, Res.pure_eq, Res.ok.injEq] at hx
    obtain ⟨⟨a, r⟩, h1, h2⟩ := hx
    exact ⟨a, r, h1, h2⟩
  simp only [Body.decoded, partBody]
  simp only [decodeBody] at h
  split at h
  · rename_i hs
    obtain ⟨a, r, h1, rfl⟩ := run h
    rw [if_pos hs, meta_cut h1, toldBody]
  rename_i hs
  rw [if_neg hs]
  split at h
  · rename_i hs
    obtain ⟨a, r, h1, rfl⟩ := run h
    rw [if_pos hs, sharedChunk_cut h1, toldBody]
  rename_i hs
  rw [if_neg hs]
  split at h
  · rename_i hs
    obtain ⟨a, r, h1, rfl⟩ := run h
    rw [if_pos hs, inst_cut h1, toldBody]
  rename_i hs
  rw [if_neg hs]
  split at h
  · rename_i hs
    obtain ⟨a, r, h1, rfl⟩ := run h
    obtain ⟨e1, e2, e3, e4⟩ := prop_cut (spill := spill) (slack' := slack') h1
    rw [if_pos hs, toldBody, ← e1, ← e2]
    generalize partProp spill slack' groups p = q at *
    obtain ⟨q1, q2, q3⟩ := q
    simp only at *
    cases ha : a.props with
    | none => rw [e3 ha]; rfl
    | some x => rw [e4 x ha (hb x ha)]; rfl
  rename_i hs
  rw [if_neg hs]
  split at h
  · rename_i hs
    obtain ⟨a, r, h1, rfl⟩ := run h
    rw [if_pos hs, parent_cut h1, toldBody]
  rename_i hs
  rw [if_neg hs]
  split at h
  · rename_i hs
    obtain ⟨a, r, h1, rfl⟩ := run h
    rw [if_pos hs, toldBody]
    simp only [decodeEnd, takeAll, Res.ok.injEq, Prod.mk.injEq] at h1
    rw [← h1.1, List.take_left]
  · cases h

/-- C105: and so it is dumped: the text of the errored chunk has the text of a chunk with what is told. -/
theorem C105_dump_partial (T : DumpText) (slack slack' : Bytes → Nat) (groups : Map (BitVec 32) (Nat × InstChunk))
    (classes : Map (BitVec 32) InstChunk) (indent i : Nat) (sig : BitVec 32) (y z : Bool) (p t : Bytes) (b : Body)
    (h : decodeBody slack groups ⟨sig, y, p ++ t⟩ = some (.ok b)) (hb : CutInOrder b) (text : Bytes)
    (ht : Chunk.dump T slack' indent i groups classes ⟨.errored sig p, z⟩ = .ok text) :
    ∃ content, (toldBody p.length b).dump T (fun _ _ => .ok []) (indent + 2) classes = .ok content ∧
      frameText (indent + 2) [] sig z content <:+: text := by
  have hc := C105_chunk_partial T.spill slack slack' groups sig y p t b h hb
  have ht' : (erroredText T slack' indent groups classes z sig p >>= fun t =>
      pure (frameText indent (str "#" ++ (formatUint i ++ str ": ")) sig z t)) = .ok text := ht
  simp only [erroredText, Res.bind_eq_ok, Res.pure_eq, Res.ok.injEq] at ht'
  obtain ⟨x, ⟨content, h1, rfl⟩, rfl⟩ := ht'
  have hc' : partBody T.spill slack' groups sig p = toldBody p.length b := hc
  rw [hc'] at h1
  have right : ∀ {x l : Bytes} (a : Bytes), x <:+: l → x <:+: a ++ l := fun a h => h.trans (List.suffix_append a _).isInfix
  have left : ∀ {x l : Bytes} (a : Bytes), x <:+: l → x <:+: l ++ a := fun a h => h.trans (List.prefix_append _ a).isInfix
  refine ⟨content, h1, ?_⟩
  generalize frameText (indent + 2) [] sig z content = inner
  unfold frameText
  refine right _ (right _ (right _ (right _ (left _ ?_))))
  refine right _ (right _ (right _ (right _ (right _ (right _ (right _ (right _ (right _ (right _ ?_)))))))))
  exact left _ (List.infix_refl _)

/-- What a cut chunk is expected to show: no elements of a property but those of the complete chunk, and zeros. -/
def ShowsItsElements (vs vs' : List Val) (zero : Val) : Prop := ∀ v ∈ vs', v ∈ vs ∨ v = zero

/-- C105 fails for elements that are interleaved: as the elements are told apart by the number of bytes, bytes of different elements get
mixed up. -/
theorem C105_values_fails :
    ¬ ∀ (spill : Nat → Bytes → Bytes) (slack : Bytes → Nat) (groups : Map (BitVec 32) (Nat × InstChunk)) (p t : Bytes)
      (c c' : PropChunk) (vs vs' : List Val), decodeBody slack groups ⟨sigPROP, false, p ++ t⟩ = some (.ok (.prop c)) →
      (Body.errored sigPROP p).decoded spill slack groups = .prop c' →
      c.props = some (.plain .int vs) → c'.props = some (.plain .int vs') → ShowsItsElements vs vs' (.int 0) := by
  intro h
  have h1 := h (fun _ b => b) (fun _ => 0) [(0, 0, ⟨0, [0x41], [0, 1], false, []⟩)] [0, 0, 0, 0, 1, 0, 0, 0, 0x50, 3, 2, 2, 0, 0] [0, 0, 0, 0]
    ⟨0, [0x50], some (.plain .int [.int 0x01000000, .int 0x01000000])⟩ ⟨0, [0x50], some (.plain .int [.int 0x01010000, .int 0])⟩ _ _
    (by decide +kernel) (by decide +kernel) rfl rfl
  exact absurd (h1 (.int 0x01010000) (List.mem_cons_self ..)) (by decide)

/-- The groups of a file with a class of two instances. -/
def cutGroups : Map (BitVec 32) (Nat × InstChunk) := [(0, 0, ⟨0, [0x41], [0, 1], false, []⟩)]

/-- A PROP chunk of two strings, without its last two bytes. -/
def cutStrings : Bytes := [0, 0, 0, 0, 1, 0, 0, 0, 0x50, 1, 2, 0, 0, 0, 0x61, 0x62, 3, 0, 0, 0, 0x63]

/-- The chunk meets the hypotheses of `C105_chunk_partial`; the first string is told. -/
example : decodeBody (fun _ => 0) cutGroups ⟨sigPROP, false, cutStrings ++ [0x64, 0x65]⟩ =
      some (.ok (.prop ⟨0, [0x50], some (.plain .string [.string [0x61, 0x62], .string [0x63, 0x64, 0x65]])⟩)) ∧
    CutInOrder (.prop ⟨0, [0x50], some (.plain .string [.string [0x61, 0x62], .string [0x63, 0x64, 0x65]])⟩) ∧
    (Body.errored sigPROP cutStrings).decoded (fun _ b => b) (fun _ => 0) cutGroups =
      .prop ⟨0, [0x50], some (.plain .string [.string [0x61, 0x62], .string []])⟩ ∧
    toldBody cutStrings.length (.prop ⟨0, [0x50], some (.plain .string [.string [0x61, 0x62], .string [0x63, 0x64, 0x65]])⟩) =
      .prop ⟨0, [0x50], some (.plain .string [.string [0x61, 0x62], .string []])⟩ := by
  refine ⟨by decide +kernel, fun a ha => by cases ha; rfl, by decide +kernel, by decide +kernel⟩

/-- A PROP chunk of two optional doubles, without its last byte: the second flag is not told. -/
def cutOptionals : Bytes := [0, 0, 0, 0, 1, 0, 0, 0, 0x50, 0x1E, 5, 1, 0, 0, 0, 0, 0, 0, 0, 2, 0, 0, 0, 0, 0, 0, 0, 2, 1]

example : decodeBody (fun _ => 0) cutGroups ⟨sigPROP, false, cutOptionals ++ [1]⟩ =
      some (.ok (.prop ⟨0, [0x50], some (.optional (.plain .double [.double 1, .double 2]) [true, true])⟩)) ∧
    (Body.errored sigPROP cutOptionals).decoded (fun _ b => b) (fun _ => 0) cutGroups =
      .prop ⟨0, [0x50], some (.optional (.plain .double [.double 1, .double 2]) [true, false])⟩ ∧
    toldBody cutOptionals.length (.prop ⟨0, [0x50], some (.optional (.plain .double [.double 1, .double 2]) [true, true])⟩) =
      .prop ⟨0, [0x50], some (.optional (.plain .double [.double 1, .double 2]) [true, false])⟩ := by
  refine ⟨by decide +kernel, by decide +kernel, by decide +kernel⟩

/-- Without the flags, without the elements, and without the type of the elements. -/
example : toldBody 27 (.prop ⟨0, [0x50], some (.optional (.plain .double [.double 1, .double 2]) [true, true])⟩) =
      .prop ⟨0, [0x50], some (.optional (.plain .double [.double 1, .double 2]) [false, false])⟩ ∧
    toldBody 20 (.prop ⟨0, [0x50], some (.optional (.plain .double [.double 1, .double 2]) [true, true])⟩) =
      .prop ⟨0, [0x50], some (.optional (.plain .double [.double 1, .double 0]) [false, false])⟩ ∧
    toldBody 10 (.prop ⟨0, [0x50], some (.optional (.plain .double [.double 1, .double 2]) [true, true])⟩) =
      .prop ⟨0, [0x50], some (.optNil [false, false])⟩ := by
  refine ⟨by decide +kernel, by decide +kernel, by decide +kernel⟩

/-- An INST chunk of a class of three instances, without the last ids: its class is told, and how many instances there are. -/
example : decodeBody (fun _ => 0) [] ⟨sigINST, false, [1, 0, 0, 0, 1, 0, 0, 0, 0x41, 0, 3, 0, 0, 0, 0, 0, 0, 0, 0, 0] ++ [0, 0, 0, 0, 2, 2]⟩ =
      some (.ok (.inst ⟨1, [0x41], [0, 1, 2], false, []⟩)) ∧
    toldBody 20 (.inst ⟨1, [0x41], [0, 1, 2], false, []⟩) = .inst ⟨1, [0x41], [0, 0, 0], false, []⟩ := by
  refine ⟨by decide +kernel, by decide +kernel⟩

theorem boolsPart {f : Val → Bool} (hf : ∀ x, f (.bool x) = x) : ∀ (n : Nat) (b : Bytes) (i : Nat),
    ((elemsPart .bool n b).map f)[i]? = some true → ∃ x, b[i]? = some x ∧ x ≠ 0#8
  | 0, b, i, h => by simp [elemsPart] at h
  | n + 1, [], i, h => by
    rw [elemsPart] at h
    simp [Val.fromBytes, constFrom] at h
  | n + 1, c :: b, i, h => by
    have e : Val.fromBytes .bool (c :: b) = .ok (.bool (c != 0#8), 1) := by
      rfl
    rw [elemsPart, e] at h
    simp only [List.drop_succ_cons, List.drop_zero, List.map_cons, hf] at h
    cases i with
    | zero =>
      simp only [List.getElem?_cons_zero, Option.some.injEq, bne_iff_ne, ne_eq] at h
      exact ⟨c, rfl, h⟩
    | succ i =>
      rw [List.getElem?_cons_succ] at h
      obtain ⟨x, h1, h2⟩ := boolsPart hf n b i h
      exact ⟨x, by rw [List.getElem?_cons_succ]; exact h1, h2⟩

theorem padTo_true {n i : Nat} {l : List Bool} (h : (padTo n false l)[i]? = some true) : l[i]? = some true := by
  rw [padTo] at h
  by_cases hl : i < l.length
  · rwa [List.getElem?_append_left hl] at h
  · rw [List.getElem?_append_right (by omega), List.getElem?_replicate] at h
    split at h <;> cases h

theorem typeArrayFrom_inOrder {slack n : Nat} {b rest : Bytes} {t : TypeID} {vs : List Val} {nn : Nat} (ht : inOrder t = true)
    (h : typeArrayFrom slack n b = .ok (.plain t vs, nn, rest)) : rest = b := by
  rcases b with _ | ⟨tb, b⟩
  · rw [typeArrayFrom] at h; cases h
  rw [typeArrayFrom] at h
  split at h
  · cases h
  · split at h
    · cases h
    · obtain ⟨⟨vs', n', r'⟩, h1, h2⟩ := Res.bind_eq_ok.1 h
      obtain ⟨⟨_, _⟩, h3, h4⟩ := Res.bind_eq_ok.1 h2
      cases h4
    · obtain ⟨⟨vs', n', r'⟩, h1, h2⟩ := Res.bind_eq_ok.1 h
      cases h2
      suffices e : r' = b by rw [e]
      unfold plainFrom at h1
      cases t <;> simp only [inOrder, reduceCtorEq, Bool.false_eq_true] at ht <;>
      · simp only [interleaved, Bool.false_eq_true, if_false, Res.pure_eq, Res.ok_bind] at h1
        obtain ⟨⟨_, _⟩, h3, h4⟩ := Res.bind_eq_ok.1 h1
        cases h4
        rfl

/-- C105: whatever the payload, complete or cut, valid or not: an element of an Optional that is dumped as present has a flag for it, after
the byte for the type of the flags; if the elements are not interleaved. -/
theorem C105_flags (spill : Nat → Bytes → Bytes) (slack : Bytes → Nat) (groups : Map (BitVec 32) (Nat × InstChunk)) (p : Bytes)
    (c : PropChunk) (t : TypeID) (vs : List Val) (present : List Bool) (h : (Body.errored sigPROP p).decoded spill slack groups = .prop c)
    (hc : c.props = some (.optional (.plain t vs) present)) (ht : inOrder t = true) (i : Nat) (hi : present[i]? = some true) :
    ∃ before flags x, p = before ++ 0x02#8 :: flags ∧ flags[i]? = some x ∧ x ≠ 0#8 := by
  have hrep : ∀ n, (List.replicate n false)[i]? ≠ some true := by
    intro n hx
    rw [List.getElem?_replicate] at hx
    split at hx <;> cases hx
  have e : c = partProp spill slack groups p := by
    have : (Body.errored sigPROP p).decoded spill slack groups = .prop (partProp spill slack groups p) := rfl
    rw [this] at h
    cases h; rfl
  subst e
  unfold partProp at hc
  rcases h1 : num32 p with ⟨cid, b⟩ | _ | _ <;> rw [h1] at hc <;> simp only at hc
  · rcases h2 : groups.get? cid with _ | ⟨k, inst⟩ <;> rw [h2] at hc <;> simp only at hc
    · cases hc
    · rcases h3 : readString b with ⟨name, raw⟩ | _ | _ <;> rw [h3] at hc <;> simp only at hc
      · split at hc
        · cases hc
        · obtain ⟨len, h4, -⟩ := readString_eq.1 h3
          have hp : p = (le32 cid ++ le32 len ++ name) ++ raw := by
            rw [num32_ok h1, h4]; simp
          cases raw with
          | nil => cases hc
          | cons tb rest =>
            rw [arrPart] at hc
            split at hc
            · cases hc
            · rcases hu : TypeID.ofByte tb with _ | u <;> rw [hu] at hc
              · cases hc
              · split at hc
                · cases hc
                · rcases h5 : typeArrayFrom (slack (tb :: rest)) inst.ids.length rest with ⟨values, nn, rest'⟩ | _ | _ <;> rw [h5] at hc <;> simp only at hc
                  · simp only [Option.some.injEq, Arr.optional.injEq] at hc
                    obtain ⟨rfl, rfl⟩ := hc
                    have h6 := typeArrayFrom_inOrder ht h5
                    subst h6
                    rcases h7 : rest'.drop nn with _ | ⟨fb, flags⟩
                    · rw [h7, presentPart] at hi; exact absurd hi (hrep _)
                    · rw [h7, presentPart] at hi
                      split at hi
                      · exact absurd hi (hrep _)
                      · split at hi
                        · exact absurd hi (hrep _)
                        · next hv hb =>
                          have hb : fb = 0x02#8 := by
                            rw [show TypeID.bool.toByte = 0x02#8 from rfl] at hb
                            exact Decidable.not_not.1 hb
                          subst hb
                          have h8 := List.take_append_drop nn rest'
                          rw [h7] at h8
                          obtain ⟨x, h9, h10⟩ : ∃ x, flags[i]? = some x ∧ x ≠ 0#8 := by
                            exact boolsPart (fun _ => rfl) _ _ _ (padTo_true hi)
                          obtain ⟨T, hT⟩ : ∃ T, rest' = T ++ 0x02#8 :: flags := ⟨_, h8.symm⟩
                          exact ⟨(le32 cid ++ le32 len ++ name) ++ tb :: T, flags, x, by rw [hp, hT]; simp, h9, h10⟩
                  all_goals
                    rcases h6 : arrPart spill (slack (tb :: rest)) inst.ids.length rest with _ | a <;> rw [h6] at hc <;> simp only [Option.some.injEq, reduceCtorEq, Arr.optional.injEq] at hc
                    obtain ⟨-, rfl⟩ := hc
                    exact absurd hi (hrep _)
                · cases hc
      · cases hc
      · cases hc
  · cases hc
  · cases hc

/-- The first flag of `cutOptionals` meets the hypotheses. -/
example : (Body.errored sigPROP cutOptionals).decoded (fun _ b => b) (fun _ => 0) cutGroups =
      .prop ⟨0, [0x50], some (.optional (.plain .double [.double 1, .double 2]) [true, false])⟩ ∧
    inOrder .double = true ∧ [true, false][0]? = some true := by
  refine ⟨by decide +kernel, rfl, rfl⟩

end Props

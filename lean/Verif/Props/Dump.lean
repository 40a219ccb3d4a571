import Verif.Rbxl.DumpDecoded
import Verif.Rbxl.DumpText
import Mathlib.Data.List.Infix
import Verif.Rbxl.PartialLemmas
import Verif.Rbxl.CodecDecode
import Verif.Props.NoPanic
import Verif.Props.Writers
/-!
# C83, C84: dumping a binary file
-/
namespace Props
open Go Spec Rbxl

/-! ## C83: the dump shows the whole file -/

section
variable {T : DumpText} {lz : LZ4} {slack : Bytes → Nat} {noXML : Bool}

/-- C83: if every chunk of a file can be decoded, and there are no optionals of optionals, then the file can be dumped. -/
theorem C83_total {b : Bytes} {f : FormatModel} (hf : (decodeFile lz slack noXML false b).2.2 = .ok (.model f))
    (hw : wellDecoded f) : ∃ t, dumpFile T lz slack noXML b = ((decodeFile lz slack noXML false b).1, .ok t) := by
  obtain ⟨t, ht⟩ := model_ok (T := T) (slack := slack) f (decoded_plain hf hw)
  refine ⟨t, ?_⟩
  unfold dumpFile
  rcases hd : decodeFile lz slack noXML false b with ⟨ws, st, r⟩
  rw [hd] at hf
  cases hf
  simp only [ht]

/-- C83: files with the same dump have the same counts, and the same chunks in the same order, each with the same content up to
the bits of NaNs and the fields that the format does not store. -/
theorem C83_determines {a b : Bytes} {f g : FormatModel} (hf : (decodeFile lz slack noXML false a).2.2 = .ok (.model f))
    (hg : (decodeFile lz slack noXML false b).2.2 = .ok (.model g)) (wf : wellDecoded f) (wg : wellDecoded g)
    (he : (dumpFile T lz slack noXML a).2 = (dumpFile T lz slack noXML b).2) :
    f.version = g.version ∧ f.classCount = g.classCount ∧ f.instanceCount = g.instanceCount ∧
      f.chunks.map shownChunk = g.chunks.map shownChunk := by
  have pf := decoded_plain hf wf
  have pg := decoded_plain hg wg
  have val : ∀ {b : Bytes} {f : FormatModel}, (decodeFile lz slack noXML false b).2.2 = .ok (.model f) →
      (dumpFile T lz slack noXML b).2 = f.dump T slack := by
    intro b f h
    unfold dumpFile
    rcases hd : decodeFile lz slack noXML false b with ⟨ws, st, r⟩
    rw [hd] at h
    cases h
    rfl
  rw [val hf, val hg] at he
  obtain ⟨t, ht⟩ := model_ok f pf
  exact model_unique f g pf pg t ht (he ▸ ht)

/-- C83: a file without chunk errors whose dump is the same as that of another one gives the same shown property values. -/
theorem C83_values {a b : Bytes} {f g : FormatModel} (hf : (decodeFile lz slack noXML false a).2.2 = .ok (.model f))
    (hg : (decodeFile lz slack noXML false b).2.2 = .ok (.model g)) (wf : wellDecoded f) (wg : wellDecoded g)
    (he : (dumpFile T lz slack noXML a).2 = (dumpFile T lz slack noXML b).2) (i : Nat) (p : PropChunk) (z : Bool)
    (hp : f.chunks[i]? = some ⟨.prop p, z⟩) :
    ∃ q, g.chunks[i]? = some ⟨.prop q, z⟩ ∧ q.classID = p.classID ∧ q.name = p.name ∧ q.props.map shownArr = p.props.map shownArr := by
  obtain ⟨-, -, -, h⟩ := C83_determines hf hg wf wg he
  have h1 : (f.chunks.map shownChunk)[i]? = (g.chunks.map shownChunk)[i]? := by rw [h]
  rw [List.getElem?_map, List.getElem?_map, hp] at h1
  rcases hq : g.chunks[i]? with _ | ⟨body, z'⟩
  · rw [hq] at h1; cases h1
  rw [hq] at h1
  simp only [Option.map_some, Option.some.injEq, shownChunk, Chunk.mk.injEq] at h1
  obtain ⟨h1, rfl⟩ := h1
  cases body <;> simp only [shownBody, reduceCtorEq, Body.prop.injEq] at h1
  rename_i q
  cases p; cases q
  simp only [PropChunk.mk.injEq] at h1
  exact ⟨_, rfl, by grind, by grind, by grind⟩

end

/-- A file that could be decoded. -/
def dumpExample : Bytes := fileOf 1 1 (instA ++ (propP [0x02, 1] ++ endFrame))

/-- What it holds. -/
def dumpExampleModel : FormatModel := ⟨0, 1, 1, [⟨.inst ⟨0, [0x41], [0], false, []⟩, false⟩,
  ⟨.prop ⟨0, [0x50], some (.plain .bool [.bool true])⟩, false⟩, ⟨.end_ endTag, false⟩], [], [(0, 0, ⟨0, [0x41], [0], false, []⟩)]⟩

/-- The rest of decoding after the header, without decompression only. -/
theorem decodeFile_start {lz : LZ4} {slack : Bytes → Nat} {noXML : Bool} (cc ic : BitVec 32) (frames : Bytes) :
    decodeFile lz slack noXML false (fileOf cc ic frames) =
      ((decodeChunks lz slack (frames.length + 1) (loop0 cc ic (List.replicate 8 0#8)) frames).1.warns,
       (decodeChunks lz slack (frames.length + 1) (loop0 cc ic (List.replicate 8 0#8)) frames).1.stats,
       match (decodeChunks lz slack (frames.length + 1) (loop0 cc ic (List.replicate 8 0#8)) frames).2 with
      | .panic => .panic
      | .err e => .err e
      | .ok trailing => .ok (.model ⟨0, cc, ic,
          (decodeChunks lz slack (frames.length + 1) (loop0 cc ic (List.replicate 8 0#8)) frames).1.chunks, trailing,
          (decodeChunks lz slack (frames.length + 1) (loop0 cc ic (List.replicate 8 0#8)) frames).1.groups⟩)) := by
  simp only [fileOf, decodeFile, readStart_start (show (List.replicate 8 0#8).length = 8 by simp), Bool.false_eq_true, if_false]
  rfl

theorem dumpExample_decoded : (decodeFile LZ4.stored (fun _ => 0) true false dumpExample).2.2 = .ok (.model dumpExampleModel) := by
  rw [dumpExample, decodeFile_start]
  rfl

/-- The example meets the conditions of C83. -/
example : wellDecoded dumpExampleModel := by
  intro c hc
  simp only [dumpExampleModel, List.mem_cons, List.not_mem_nil, or_false] at hc
  rcases hc with rfl | rfl | rfl
  · exact ⟨nofun, nofun⟩
  · refine ⟨nofun, ?_⟩
    rintro p a ⟨⟩ ⟨⟩ h
    exact h
  · exact ⟨nofun, nofun⟩

/-- Its dump. -/
example : (dumpExampleModel.dump asciiText fun _ => 0) = .ok (str
    "Version: 0\nClasses: 1\nInstances: 1\nChunks: {\n\t#0: INST (49 4E 53 54) (uncompressed) {\n\t\tClassID: 0\n\t\tClassName: (len:1) \"A\"\n\t\tInstanceIDs: (count:1) {\n\t\t\t0: 0\n\t\t}\n\t}\n\t#1: PROP (50 52 4F 50) (uncompressed) {\n\t\tClassID: 0 (count:1, (len:1) \"A\")\n\t\tPropertyName: (len:1) \"P\"\n\t\tProperties: (count:1, (type:2) Bool) {\n\t\t\t0: true\n\t\t}\n\t}\n\t#2: END. (45 4E 44 00) (uncompressed) {\n\t\tContent: (len:9) \"</roblox>\"\n\t}\n}") := by
  decide +kernel

/-! ## C84: what `Dump` reports and delivers -/

section
variable {T : DumpText} {lz : LZ4} {slack : Bytes → Nat} {noXML : Bool}

/-- C84: a dump has the warnings of decoding the file, and if decoding the bytes fails, it fails with the same error. -/
theorem C84_reports_partial (quat : Quat) (b : Bytes) : (dumpFile T lz slack noXML b).1 = (decodeRoot lz slack quat noXML b).warns ∧
    (∀ e, (decodeFile lz slack noXML false b).2.2 = .err e →
      (decodeRoot lz slack quat noXML b).result = .err e ∧ (dumpFile T lz slack noXML b).2 = .err e) ∧
    (∀ c, (decodeRoot lz slack quat noXML b).result = .ok (.xml c) →
      (dumpFile T lz slack noXML b).2 = .err (.other "unexpected XML format")) := by
  unfold dumpFile decodeRoot
  rcases decodeFile lz slack noXML false b with ⟨ws, st, (r | r) | e | _⟩
  · exact ⟨rfl, nofun, fun _ _ => rfl⟩
  · refine ⟨rfl, nofun, ?_⟩
    intro c hc
    simp only at hc
    obtain ⟨⟨h, root⟩, _, hc⟩ := (Res.bind_eq_ok ..).1 hc
    cases hc
  · exact ⟨rfl, fun e h => (by cases h; exact ⟨rfl, rfl⟩), nofun⟩
  · exact ⟨rfl, nofun, nofun⟩

end

section
variable {σ ε : Type} (W : Writer σ ε)

theorem run_wrote (p : Put) {b : BufWriter σ ε} {out : Bytes} (h : b.Wrote out) : (p.run W b).Wrote (out ++ p.data) := by
  cases p with
  | byte c => exact (b.writeByte_wrote W h c).1
  | bytes q => exact (b.write_wrote W h q).1
  | string q => exact (b.writeString_wrote W h q).1

theorem run_honest (p : Put) {s : σ} {b : BufWriter σ ε} (h : BufWriter.Honest W s b) : BufWriter.Honest W s (p.run W b) := by
  cases p with
  | byte c => exact BufWriter.writeByte_honest W h c
  | bytes q => exact BufWriter.write_honest W h q
  | string q => exact BufWriter.writeString_honest W h q

theorem puts_wrote {s : σ} : ∀ (puts : List Put) {b : BufWriter σ ε} {out : Bytes}, b.Wrote out → BufWriter.Honest W s b →
    (puts.foldl (fun (b : BufWriter σ ε) (p : Put) => p.run W b) b).Wrote (out ++ puts.flatMap Put.data) ∧
      BufWriter.Honest W s (puts.foldl (fun (b : BufWriter σ ε) (p : Put) => p.run W b) b)
  | [], b, out, h, hh => by simpa using ⟨h, hh⟩
  | p :: ps, b, out, h, hh => by
    have := puts_wrote ps (run_wrote W p h) (run_honest W p hh)
    simpa [List.append_assoc] using this

theorem dumpTo_delivered (s : σ) (puts : List Put) :
    ∃ err s', Delivered (puts.flatMap Put.data) (dumpTo W s puts).1 err ∧ Made W s (dumpTo W s puts).1 s' := by
  have h0 : (⟨⟨s, []⟩, [], none⟩ : BufWriter σ ε).Wrote [] := ⟨Nat.zero_le _, by simp [received]⟩
  obtain ⟨h1, h2⟩ := puts_wrote W puts h0 (show BufWriter.Honest W s _ from Made.nil)
  rw [List.nil_append] at h1
  unfold dumpTo
  generalize puts.foldl (fun (b : BufWriter σ ε) (p : Put) => p.run W b) ⟨⟨s, []⟩, [], none⟩ = b at *
  obtain ⟨h3, h4, -⟩ := b.flush_wrote W h1
  refine ⟨(b.flush W).err, (b.flush W).sink.state, ?_, BufWriter.flush_honest W h2⟩
  rcases he : (b.flush W).err with _ | e
  · have := (BufWriter.wrote_none he).1 h3
    rw [h4 he] at this
    simpa [Delivered] using this.2
  · exact ((BufWriter.wrote_some he).1 h3).2

/-- C84: however the text of a dump is written in pieces, it arrives at a writer that does not fail; at a writer that fails, a
beginning of it arrives, and the writer is not called again. -/
theorem C84_delivers_partial (s : σ) (puts : List Put) (text : Bytes) (h : puts.flatMap Put.data = text) :
    (∃ err, Delivered text (dumpTo W s puts).1 err) ∧ (W.Reliable → received (dumpTo W s puts).1 = text) := by
  subst h
  obtain ⟨err, s', h1, h2⟩ := dumpTo_delivered W s puts
  exact ⟨⟨err, h1⟩, fun hr => (delivered_reliable hr h2 h1).2⟩

end

/-- C84: a writer fails after 5 bytes, and no error is returned: `Dump` ignores the error of `Flush`. -/
theorem C84_delivers_fails : ((received (dumpTo limited 5 [.string (str "Version: 0"), .byte 10#8]).1, (dumpTo limited 5 [.string (str "Version: 0"), .byte 10#8]).2) :
    Bytes × Option Nat) = (str "Versi", none) ∧
    ((dumpTo limited 5 [.string (str "Version: 0"), .byte 10#8]).1.map (·.err)) = [some 5] := by
  decide +kernel

/-- C84: the file of an array of optionals of optional booleans can be decoded, but `Dump` panics. -/
theorem C84_panics_fails :
    (∃ f, (decodeFile LZ4.stored (fun _ => 0) true false
      (fileOf 1 1 (instA ++ (propP [0x1E, 0x1E, 0x02, 1, 0x02, 0, 0x02, 1] ++ endFrame)))).2.2 = .ok (.model f)) ∧
    (dumpFile asciiText LZ4.stored (fun _ => 0) true
      (fileOf 1 1 (instA ++ (propP [0x1E, 0x1E, 0x02, 1, 0x02, 0, 0x02, 1] ++ endFrame)))).2 = .panic := by
  unfold dumpFile
  rw [decodeFile_start]
  exact ⟨⟨_, rfl⟩, rfl⟩

/-- C84: a property chunk of optionals of optional booleans that ends too early is skipped with a warning when the file is decoded, but
`Dump` panics. -/
theorem C84_errored_fails :
    (∃ f, (decodeFile LZ4.stored (fun _ => 0) true false (fileOf 1 1 (instA ++ (propP [0x1E, 0x1E, 0x02, 1] ++ endFrame)))).2.2 =
      .ok (.model f) ∧ f.chunks[1]? = some ⟨.errored sigPROP [0, 0, 0, 0, 1, 0, 0, 0, 0x50, 0x1E, 0x1E, 0x02, 1], false⟩) ∧
    (dumpFile asciiText LZ4.stored (fun _ => 0) true
      (fileOf 1 1 (instA ++ (propP [0x1E, 0x1E, 0x02, 1] ++ endFrame)))).2 = .panic := by
  unfold dumpFile
  rw [decodeFile_start]
  exact ⟨⟨_, rfl, rfl⟩, rfl⟩

/-- C84: the labels of a UDim2 are exchanged: the scale of Y is shown as the offset of X. -/
theorem C84_udim2_fails : (Val.udim2 0 0x3f800000#32 7 0).dump asciiText 0 =
    str "{\n\tX.Scale: 0\n\tY.Scale: 7\n\tX.Offset: 1\n\tY.Offset: 0\n}" := by
  decide +kernel

/-! ## C84: exactly when `Dump` panics -/

section
variable {T : DumpText} {slack : Bytes → Nat}

theorem get_iff : ∀ (a : Arr) (i : Nat), (∃ v, a.get i = .ok (some v)) ↔ HasValue a i
  | .plain t vs, i => by
    rw [Arr.get]
    constructor
    · rintro ⟨v, h⟩
      split at h
      · rename_i hv; exact .plain (List.getElem?_eq_some_iff.1 hv).1
      · cases h
    · intro h
      cases h with
      | plain h => exact ⟨vs[i], by rw [List.getElem?_eq_getElem h]⟩
  | .optNil _, i => by
    rw [Arr.get]
    exact ⟨fun ⟨_, h⟩ => (by cases h), fun h => (by cases h)⟩
  | .optional a present, i => by
    rw [Arr.get]
    constructor
    · rintro ⟨v, h⟩
      split at h
      · cases h
      · cases h
      · rename_i hp; exact .optional hp ((get_iff a i).1 ⟨v, h⟩)
    · intro h
      cases h with
      | optional hp h => rw [hp]; exact (get_iff a i).2 h

theorem get_noErr : ∀ (a : Arr) (i : Nat) (e : Err), a.get i ≠ .err e
  | .plain t vs, i, e => by rw [Arr.get]; split <;> nofun
  | .optNil _, i, e => nofun
  | .optional a present, i, e => by
    rw [Arr.get]
    split
    · nofun
    · nofun
    · exact get_noErr a i e

/-- The computation returns or panics. -/
def Clean {α : Type} (x : Res α) : Prop := ∀ e, x ≠ .err e

theorem clean_bind {α β : Type} {x : Res α} (g : α → β) (h : Clean x) : Clean (x >>= fun a => pure (g a)) ∧
    ((x >>= fun a => pure (g a)) = Res.panic ↔ x = .panic) := by
  cases x with
  | ok a => exact ⟨nofun, iff_of_false nofun nofun⟩
  | err e => exact absurd rfl (h e)
  | panic => exact ⟨nofun, iff_of_true rfl rfl⟩

theorem optTexts_panic (indent : Nat) (a : Arr) (present : List Bool) : ∀ (n i : Nat),
    Clean (optTexts T indent a present n i) ∧ (optTexts T indent a present n i = .panic ↔
      ∃ j, i ≤ j ∧ j < i + n ∧ j < present.length ∧ ¬ HasValue a j)
  | 0, i => ⟨nofun, iff_of_false nofun (by rintro ⟨j, h1, h2, -⟩; omega)⟩
  | n + 1, i => by
    obtain ⟨c, ih⟩ := optTexts_panic indent a present n (i + 1)
    have next : ∀ {P : Prop}, (i < present.length → HasValue a i) → ((P ↔ optTexts T indent a present n (i + 1) = .panic)) →
        (P ↔ ∃ j, i ≤ j ∧ j < i + (n + 1) ∧ j < present.length ∧ ¬ HasValue a j) := by
      intro P hi hP
      rw [hP, ih]
      constructor
      · rintro ⟨j, h1, h2, h3, h4⟩
        exact ⟨j, by omega, by omega, h3, h4⟩
      · rintro ⟨j, h1, h2, h3, h4⟩
        by_cases e : j = i
        · subst e; exact absurd (hi h3) h4
        · exact ⟨j, by omega, by omega, h3, h4⟩
    rw [optTexts]
    split
    · rename_i hp
      have hp' := List.getElem?_eq_none_iff.1 hp
      obtain ⟨c1, c2⟩ := clean_bind (fun ts => str "invalid" :: ts) c
      exact ⟨c1, next (fun h => by omega) c2⟩
    · rename_i p hp
      have hp' := (List.getElem?_eq_some_iff.1 hp).1
      have bad : (∀ v, a.get i ≠ .ok (some v)) → ∃ j, i ≤ j ∧ j < i + (n + 1) ∧ j < present.length ∧ ¬ HasValue a j :=
        fun h => ⟨i, by omega, by omega, hp', fun hv => (by obtain ⟨v, hv⟩ := (get_iff a i).2 hv; exact h v hv)⟩
      split
      · rename_i hg
        exact ⟨nofun, iff_of_true rfl (bad (by rw [hg]; nofun))⟩
      · rename_i e hg
        exact absurd hg (get_noErr a i e)
      · rename_i hg
        exact ⟨nofun, iff_of_true rfl (bad (by rw [hg]; nofun))⟩
      · rename_i v hg
        obtain ⟨c1, c2⟩ := clean_bind (fun ts => optText T indent p v :: ts) c
        exact ⟨c1, next (fun _ => (get_iff a i).1 ⟨v, hg⟩) c2⟩

theorem arr_panic (indent : Nat) (a : Arr) : Clean (a.dump T indent) ∧ (a.dump T indent = .panic ↔ HollowOptional a) := by
  cases a with
  | plain t vs => exact ⟨nofun, iff_of_false nofun id⟩
  | optNil p => exact ⟨nofun, iff_of_false nofun id⟩
  | optional a present =>
    obtain ⟨c, h⟩ := optTexts_panic (T := T) (indent + 2) a present a.len 0
    rw [Arr.dump]
    obtain ⟨c1, c2⟩ := clean_bind (fun ts => str "(" ++ (typeText a.type ++ (str ") {" ++ (numbered (indent + 2) 0 ts ++
      (newline (indent + 1) ++ str "}"))))) c
    refine ⟨c1, c2.trans (h.trans ?_)⟩
    simp [HollowOptional]

theorem body_panic (indent : Nat) (e : BitVec 32 → Bytes → Res Bytes) (classes : Map (BitVec 32) InstChunk) (b : Body)
    (hb : ∀ sig bytes, b ≠ .errored sig bytes) : Clean (b.dump T e indent classes) ∧ (b.dump T e indent classes = .panic ↔
      ∃ p a, b = .prop p ∧ p.props = some a ∧ HollowOptional a) := by
  cases hc : b with
  | prop p =>
    rw [Body.dump]
    have h1 : Clean (propsText T indent p.props) ∧ (propsText T indent p.props = .panic ↔
        ∃ a, p.props = some a ∧ HollowOptional a) := by
      cases p.props with
      | none => exact ⟨nofun, iff_of_false nofun (by rintro ⟨a, h, -⟩; cases h)⟩
      | some a =>
        rw [propsText]
        obtain ⟨h1, h2⟩ := arr_panic (T := T) (indent + 1) a
        obtain ⟨c1, c2⟩ := clean_bind (fun t => newline (indent + 1) ++ (str "Properties: (count:" ++ (formatUint a.len ++
          (str ", " ++ (typeText a.type ++ (str ") " ++ t)))))) h1
        refine ⟨c1, c2.trans (h2.trans ?_)⟩
        simp
    obtain ⟨c1, c2⟩ := clean_bind (fun t => newline (indent + 1) ++ (str "ClassID: " ++ (formatInt p.classID.toInt ++
      (classText T indent (classes.get? p.classID) ++ (newline (indent + 1) ++ (str "PropertyName: " ++
        (dumpString T (indent + 1) p.name ++ t))))))) h1.1
    refine ⟨c1, c2.trans (h1.2.trans ?_)⟩
    constructor
    · rintro ⟨a, h1, h2⟩; exact ⟨p, a, rfl, h1, h2⟩
    · rintro ⟨_, a, ⟨⟩, h1, h2⟩; exact ⟨a, h1, h2⟩
  | errored sig bytes => exact absurd hc (hb sig bytes)
  | _ => exact ⟨nofun, iff_of_false nofun (by rintro ⟨p, a, h, -⟩; cases h)⟩

theorem partBody_not_errored (spill : Nat → Bytes → Bytes) (slack : Bytes → Nat) (groups : Map (BitVec 32) (Nat × InstChunk))
    (s : BitVec 32) (b : Bytes) (sig : BitVec 32) (bytes : Bytes) : partBody spill slack groups s b ≠ .errored sig bytes := by
  unfold partBody
  repeat' split
  all_goals nofun

theorem chunk_panic (indent i : Nat) (groups : Map (BitVec 32) (Nat × InstChunk)) (classes : Map (BitVec 32) InstChunk) (c : Chunk) :
    Clean (c.dump T slack indent i groups classes) ∧ (c.dump T slack indent i groups classes = .panic ↔
      HollowChunk T.spill slack groups c) := by
  unfold Chunk.dump HollowChunk
  have key : Clean (c.body.dump T (erroredText T slack indent groups classes c.compressed) indent classes) ∧
      (c.body.dump T (erroredText T slack indent groups classes c.compressed) indent classes = .panic ↔
        ∃ p a, c.body.decoded T.spill slack groups = .prop p ∧ p.props = some a ∧ HollowOptional a) := by
    by_cases he : ∃ sig bytes, c.body = .errored sig bytes
    · obtain ⟨sig, bytes, he⟩ := he
      rw [he, Body.dump, erroredText, Body.decoded]
      obtain ⟨k1, k2⟩ := body_panic (T := T) (indent + 2) (fun _ _ => .ok []) classes (partBody T.spill slack groups sig bytes)
        (partBody_not_errored _ _ _ _ _)
      obtain ⟨c1, c2⟩ := clean_bind (fun t => newline (indent + 1) ++ (str "<errored chunk>" ++ (newline (indent + 1) ++ (str "Offset: " ++
        ((T.fault groups sig bytes).1 ++ (newline (indent + 1) ++ (str "Error: " ++ ((T.fault groups sig bytes).2 ++ (newline (indent + 1) ++
          (str "Chunk:" ++ (frameText (indent + 2) [] sig c.compressed t ++ (newline (indent + 1) ++ (str "Bytes: " ++
            dumpBytes (indent + 1) bytes))))))))))))) k1
      exact ⟨c1, c2.trans k2⟩
    · have hn : ∀ sig bytes, c.body ≠ .errored sig bytes := fun s b h => he ⟨s, b, h⟩
      have hd : c.body.decoded T.spill slack groups = c.body := by
        cases hb : c.body <;> first | rfl | exact absurd hb (hn _ _)
      rw [hd]
      exact body_panic indent _ classes c.body hn
  obtain ⟨c1, c2⟩ := clean_bind (fun t => frameText indent (str "#" ++ (formatUint i ++ str ": ")) c.body.sig c.compressed t) key.1
  exact ⟨c1, c2.trans key.2⟩

theorem chunks_panic : ∀ (cs : List Chunk) (i : Nat) (groups : Map (BitVec 32) (Nat × InstChunk)) (classes : Map (BitVec 32) InstChunk),
    Clean (dumpChunks T slack i groups classes cs) ∧ (dumpChunks T slack i groups classes cs = .panic ↔
      ∃ before c after, cs = before ++ c :: after ∧ HollowChunk T.spill slack (lookupAfter i groups before) c)
  | [], i, groups, classes => ⟨nofun, iff_of_false nofun (by simp)⟩
  | c :: cs, i, groups, classes => by
    obtain ⟨h1, h2⟩ := chunk_panic (T := T) (slack := slack) 1 i groups (addClass classes (c.body.decoded T.spill slack groups)) c
    obtain ⟨h3, h4⟩ := chunks_panic cs (i + 1) (addGroup i groups c.body) (addClass classes (c.body.decoded T.spill slack groups))
    have cases' : (∃ before d after, c :: cs = before ++ d :: after ∧ HollowChunk T.spill slack (lookupAfter i groups before) d) ↔
        HollowChunk T.spill slack groups c ∨ ∃ before d after, cs = before ++ d :: after ∧
          HollowChunk T.spill slack (lookupAfter (i + 1) (addGroup i groups c.body) before) d := by
      constructor
      · rintro ⟨before, d, after, he, hd⟩
        cases before with
        | nil => cases he; exact .inl hd
        | cons x before => cases he; exact .inr ⟨before, d, after, rfl, hd⟩
      · rintro (h | ⟨before, d, after, rfl, hd⟩)
        · exact ⟨[], c, cs, rfl, h⟩
        · exact ⟨c :: before, d, after, rfl, hd⟩
    rw [cases', dumpChunks, ← h2, ← h4]
    rcases hc : c.dump T slack 1 i groups (addClass classes (c.body.decoded T.spill slack groups)) with t | e | _
    · obtain ⟨c1, c2⟩ := clean_bind (fun ts => t ++ ts) h3
      refine ⟨c1, c2.trans ?_⟩
      simp
    · exact absurd hc (h1 e)
    · exact ⟨nofun, iff_of_true rfl (.inl rfl)⟩

/-- C84: exactly when `Dump` panics: when decoding the bytes panics (see `C21_panics_iff`), or when the file can be decoded and
has a property of Optionals of which an element has, inside, an Optional without a value. The chunk of the property need not be one
that could be decoded: of one that could not, what was decoded counts. Nothing else makes it panic, and a file that can be decoded
is never refused with an error. -/
theorem C84_panics_iff {lz : LZ4} {noXML : Bool} (b : Bytes) :
    ((dumpFile T lz slack noXML b).2 = .panic ↔ (decodeFile lz slack noXML false b).2.2 = .panic ∨
      ∃ f, (decodeFile lz slack noXML false b).2.2 = .ok (.model f) ∧ Hollow T.spill slack f) ∧
    ∀ f, (decodeFile lz slack noXML false b).2.2 = .ok (.model f) → ∀ e, (dumpFile T lz slack noXML b).2 ≠ .err e := by
  unfold dumpFile
  rcases decodeFile lz slack noXML false b with ⟨ws, st, (r | f) | e | _⟩
  · exact ⟨iff_of_false nofun (by rintro (h | ⟨f, h, -⟩) <;> cases h), nofun⟩
  · obtain ⟨h1, h2⟩ := chunks_panic (T := T) (slack := slack) f.chunks 0 [] []
    obtain ⟨c1, c2⟩ := clean_bind (fun t => str "Version: " ++ (formatUint f.version.toNat ++ (str "\nClasses: " ++
      (formatUint f.classCount.toNat ++ (str "\nInstances: " ++ (formatUint f.instanceCount.toNat ++ (str "\nChunks: {" ++
        (t ++ str "\n}")))))))) h1
    refine ⟨(c2.trans h2).trans ?_, fun _ _ => c1⟩
    constructor
    · intro h; exact .inr ⟨f, rfl, h⟩
    · rintro (h | ⟨_, ⟨⟩, h⟩)
      · cases h
      · exact h
  · exact ⟨iff_of_false nofun (by rintro (h | ⟨f, h, -⟩) <;> cases h), nofun⟩
  · exact ⟨iff_of_true rfl (.inl rfl), nofun⟩

theorem ofByte_optional {tb : Byte} (h : TypeID.ofByte tb = some .optional) : tb = 0x1E#8 := by
  have := List.find?_some h
  simp only [beq_iff_eq] at this
  rw [← this]
  rfl

/-- What was decoded of an array of optionals of optionals starts with two type bytes. -/
theorem arrPart_hollow {spill : Nat → Bytes → Bytes} {s n : Nat} {b : Bytes} {a : Arr} (h : arrPart spill s n b = some a)
    (hh : HollowOptional a) : ∃ r, b = 0x1E#8 :: 0x1E#8 :: r := by
  have one : ∀ {b : Bytes} {x : Arr}, arrPart spill s n b = some x → (∃ t vs, x = .plain t vs) ∨ ∃ r, b = 0x1E#8 :: r := by
    intro b x h
    cases b with
    | nil => cases h
    | cons tb rest =>
      rw [arrPart] at h
      split at h
      · cases h
      · cases ht : TypeID.ofByte tb with
        | none => rw [ht] at h; cases h
        | some t =>
          rw [ht] at h
          by_cases hto : t = .optional
          · subst hto; exact .inr ⟨rest, by rw [ofByte_optional ht]⟩
          · left
            cases t <;> first | exact absurd rfl hto | (cases h; exact ⟨_, _, rfl⟩)
  have plain : ∀ {t : TypeID} {vs : List Val} {ps : List Bool}, ¬ HollowOptional (.optional (.plain t vs) ps) := by
    rintro t vs ps ⟨i, h1, -, h2⟩
    exact h2 (.plain h1)
  obtain ⟨t, vs, rfl⟩ | ⟨rest, rfl⟩ := one h
  · exact hh.elim
  · rw [arrPart, if_neg (by decide), show TypeID.ofByte 0x1E#8 = some .optional by decide] at h
    dsimp only at h
    split at h
    · rename_i values nn rest' hv
      cases h
      obtain ⟨t, vs, rfl⟩ | ⟨r, rfl⟩ := one (arrPart_ok (spill := spill) _ hv)
      · exact absurd hh plain
      · exact ⟨r, rfl⟩
    · split at h
      · cases h; exact hh.elim
      · rename_i x hx
        cases h
        obtain ⟨t, vs, rfl⟩ | ⟨r, rfl⟩ := one hx
        · exact absurd hh plain
        · exact ⟨r, rfl⟩

/-- C84: if decoding gives no array of optionals of optionals, and no chunk that could not be decoded has the bytes of two such types in
a row, then `Dump` writes the text: chunks that could not be decoded do not keep the others from being shown. -/
theorem C84_returns {lz : LZ4} {noXML : Bool} {b : Bytes} {f : FormatModel}
    (hf : (decodeFile lz slack noXML false b).2.2 = .ok (.model f))
    (hd : ∀ c ∈ f.chunks, ∀ p a, c.body = .prop p → p.props = some a → ¬ nestedOptional a)
    (he : ∀ c ∈ f.chunks, ∀ sig bytes, c.body = .errored sig bytes → ¬ [0x1E#8, 0x1E#8] <:+: bytes) :
    ∃ t, (dumpFile T lz slack noXML b).2 = .ok t := by
  obtain ⟨h1, h2⟩ := C84_panics_iff (T := T) (slack := slack) (lz := lz) (noXML := noXML) b
  rcases hr : (dumpFile T lz slack noXML b).2 with t | e | _
  · exact ⟨t, rfl⟩
  · exact absurd hr (h2 f hf e)
  · exfalso
    obtain h | ⟨g, hg, before, c, after, hc, p, a, h3, h4, h5⟩ := h1.1 hr
    · rw [hf] at h; cases h
    · rw [hf] at hg; cases hg
      have hm : c ∈ f.chunks := by rw [hc]; simp
      cases hb : c.body with
      | prop q =>
        rw [hb] at h3
        cases h3
        refine hd c hm p a hb h4 ?_
        cases a with
        | plain => exact h5
        | optNil => exact trivial
        | optional a ps =>
          cases a with
          | plain t vs =>
            obtain ⟨i, k1, -, k2⟩ := h5
            exact k2 (.plain k1)
          | optNil => exact trivial
          | optional => exact trivial
      | errored sig bytes =>
        rw [hb, Body.decoded] at h3
        have hp : p = partProp T.spill slack (lookupAfter 0 [] before) bytes := by
          unfold partBody at h3
          repeat' split at h3
          all_goals first | cases h3 | skip
          rfl
        subst hp
        unfold partProp at h4
        split at h4
        · rename_i h6
          split at h4
          · cases h4
          · split at h4
            · rename_i h7
              split at h4
              · cases h4
              · obtain ⟨r, rfl⟩ := arrPart_hollow h4 h5
                refine he c hm sig bytes hb ?_
                have e1 := num32_ok h6
                unfold readString at h7
                simp only [rd_bind, Res.bind_eq_ok] at h7
                obtain ⟨⟨n, b2⟩, h8, h9⟩ := h7
                have e2 := num32_ok h8
                obtain ⟨e3, -⟩ := takeN_ok h9
                dsimp only at *
                exact ⟨le32 _ ++ (le32 n ++ _), r, by rw [e1, e2, e3]; simp only [List.append_assoc]; rfl⟩
            · cases h4
        · cases h4
      | _ => rw [hb] at h3; cases h3

/-- C84: the classes with which `Hollow` looks at a chunk that could not be decoded are those with which it could not be decoded. -/
theorem C84_lookup {lz : LZ4} {noXML : Bool} {b : Bytes} {f : FormatModel}
    (h : (decodeFile lz slack noXML false b).2.2 = .ok (.model f)) : f.groupLookup = lookupAfter 0 [] f.chunks ∧
    ∀ before c after sig bytes, f.chunks = before ++ c :: after → c.body = .errored sig bytes →
      ∃ e, decodeBody slack (lookupAfter 0 [] before) ⟨sig, c.compressed, bytes⟩ = some (.err e) :=
  decoded_groups h

/-- A text of lines. -/
def ofLines (ls : List String) : Bytes := List.intercalate [10#8] (ls.map str)

/-- A property chunk without the values: it cannot be decoded. -/
def cutModel : FormatModel := ⟨0, 1, 1, [⟨.inst ⟨0, [0x41], [0], false, []⟩, false⟩,
  ⟨.errored sigPROP [0, 0, 0, 0, 1, 0, 0, 0, 0x50, 0x02], false⟩, ⟨.end_ endTag, false⟩], [], [(0, 0, ⟨0, [0x41], [0], false, []⟩)]⟩

/-- The file meets the conditions of `C84_returns`. -/
example : (decodeFile LZ4.stored (fun _ => 0) true false (fileOf 1 1 (instA ++ (propP [0x02] ++ endFrame)))).2.2 = .ok (.model cutModel) ∧
    (∀ c ∈ cutModel.chunks, ∀ p a, c.body = .prop p → p.props = some a → ¬ nestedOptional a) ∧
    ∀ c ∈ cutModel.chunks, ∀ sig bytes, c.body = .errored sig bytes → ¬ [0x1E#8, 0x1E#8] <:+: bytes := by
  refine ⟨?_, ?_, ?_⟩
  · rw [decodeFile_start]; rfl
  · intro c hc
    simp only [cutModel, List.mem_cons, List.not_mem_nil, or_false] at hc
    rcases hc with rfl | rfl | rfl <;> nofun
  · intro c hc
    simp only [cutModel, List.mem_cons, List.not_mem_nil, or_false] at hc
    rcases hc with rfl | rfl | rfl
    · nofun
    · rintro sig bytes ⟨⟩
      decide
    · nofun

/-- Its dump: the property as far as it was decoded, and the bytes of the chunk. -/
example : (cutModel.dump asciiText fun _ => 0) = .ok (ofLines [
    "Version: 0", "Classes: 1", "Instances: 1", "Chunks: {", "\t#0: INST (49 4E 53 54) (uncompressed) {", "\t\tClassID: 0",
    "\t\tClassName: (len:1) \"A\"", "\t\tInstanceIDs: (count:1) {", "\t\t\t0: 0", "\t\t}", "\t}",
    "\t#1: PROP (50 52 4F 50) (uncompressed) {", "\t\t<errored chunk>", "\t\tOffset: 10", "\t\tError: EOF", "\t\tChunk:",
    "\t\t\tPROP (50 52 4F 50) (uncompressed) {", "\t\t\t\tClassID: 0 (count:1, (len:1) \"A\")",
    "\t\t\t\tPropertyName: (len:1) \"P\"", "\t\t\t\tProperties: (count:1, (type:2) Bool) {", "\t\t\t\t\t0: false",
    "\t\t\t\t}", "\t\t\t}", "\t\tBytes: (len:10)", "\t\t\t| 00 00 00 00 01 00 00 00  50 02 |........P.|", "\t}",
    "\t#2: END. (45 4E 44 00) (uncompressed) {", "\t\tContent: (len:9) \"</roblox>\"", "\t}", "}"]) := by
  decide +kernel

/-- An instance chunk that ends after the number of instances, and a property chunk of the same class. -/
def lostModel : FormatModel := ⟨0, 1, 1, [⟨.errored sigINST [0, 0, 0, 0, 1, 0, 0, 0, 0x41, 0, 2, 0, 0, 0], true⟩,
  ⟨.errored sigPROP [0, 0, 0, 0, 1, 0, 0, 0, 0x50, 0x02, 1, 1], false⟩], [], []⟩

/-- C84: the class of an instance chunk that could not be decoded is shown with the properties of the class, although these chunks
cannot be decoded for lack of the class. -/
theorem C84_lost_class : (lostModel.dump asciiText fun _ => 0) = .ok (ofLines [
    "Version: 0", "Classes: 1", "Instances: 1", "Chunks: {", "\t#0: INST (49 4E 53 54) (compressed) {",
    "\t\t<errored chunk>", "\t\tOffset: 14", "\t\tError: EOF", "\t\tChunk:", "\t\t\tINST (49 4E 53 54) (compressed) {",
    "\t\t\t\tClassID: 0", "\t\t\t\tClassName: (len:1) \"A\"", "\t\t\t\tInstanceIDs: (count:2) {", "\t\t\t\t\t0: 0",
    "\t\t\t\t\t1: 0", "\t\t\t\t}", "\t\t\t}", "\t\tBytes: (len:14)",
    "\t\t\t| 00 00 00 00 01 00 00 00  41 00 02 00 00 00 |........A.....|", "\t}",
    "\t#1: PROP (50 52 4F 50) (uncompressed) {", "\t\t<errored chunk>", "\t\tOffset: 12", "\t\tError: EOF", "\t\tChunk:",
    "\t\t\tPROP (50 52 4F 50) (uncompressed) {", "\t\t\t\tClassID: 0 (count:2, (len:1) \"A\")",
    "\t\t\t\tPropertyName: (len:0) \"\"", "\t\t\t}", "\t\tBytes: (len:12)",
    "\t\t\t| 00 00 00 00 01 00 00 00  50 02 01 01 |........P...|", "\t}", "}"]) := by
  decide +kernel

/-- Neither chunk can be decoded. -/
example : ∀ c ∈ lostModel.chunks, ∀ sig bytes, c.body = .errored sig bytes →
    ∃ e, decodeBody (fun _ => 0) [] ⟨sig, c.compressed, bytes⟩ = some (.err e) := by
  intro c hc
  simp only [lostModel, List.mem_cons, List.not_mem_nil, or_false] at hc
  rcases hc with rfl | rfl
  · rintro sig bytes ⟨⟩; exact ⟨_, rfl⟩
  · rintro sig bytes ⟨⟩; exact ⟨_, rfl⟩

/-- An array of an Optional of an absent Optional; and one of an absent Optional of a boolean, which is harmless. -/
example : HollowOptional (.optional (.optional (.plain .bool [.bool true]) [false]) [true]) ∧
    ¬ HollowOptional (.optional (.plain .bool [.bool true]) [false]) := by
  refine ⟨⟨0, by decide, by decide, ?_⟩, ?_⟩
  · intro h
    cases h with
    | optional h => cases h
  · rintro ⟨i, h1, -, h2⟩
    exact h2 (.plain h1)

end

end Props

import Verif.Rbxl.CodecExact
import Verif.Rbxl.PanicFrames
import Verif.Rbxl.DecodeGroups
import Verif.Props.DecodeBinary
import Verif.Props.NoPanic
/-!
# C20, C21: exactly which binary files decode, and exactly which make the decoder panic
-/
namespace Props
open Go Rbxfile Rbxl Spec

/-- What the decoder reads from a binary file is a model of which the table of classes is right. -/
theorem modelOk_of_chunks {lz : LZ4} {slack} {cc ic : BitVec 32} {res rest t : Bytes} {fuel : Nat} {st : LoopState}
    (h : decodeChunks lz slack fuel (loop0 cc ic res) rest = (st, .ok t)) : ModelOk ⟨0, cc, ic, st.chunks, t, st.groups⟩ := by
  obtain ⟨-, pre, last, x, h1, h2, h3⟩ := decodeChunks_groups _ _ _ _ _ h ⟨by simp [loop0, Map.get?], by simp [loop0]⟩ (by simp [loop0])
  refine ⟨decodeChunks_readOk _ _ _ _ _ h ReadOk.nil, last, x, ?_, h2⟩
  simp only
  rw [h1, beforeEnd_append h3]
  simp [beforeEnd, h2]

/-- `decodeFile` and `decodeRoot` on a file that starts as a binary file does. -/
theorem decode_start {lz : LZ4} {slack quat noXML} {cc ic : BitVec 32} {res : Bytes} (h : res.length = 8) (rest : Bytes) :
    (∃ st t, decodeChunks lz slack (rest.length + 1) (loop0 cc ic res) rest = (st, .ok t) ∧
      decodeFile lz slack noXML false (binaryStart cc ic res ++ rest) =
        (st.warns, st.stats, .ok (.model ⟨0, cc, ic, st.chunks, t, st.groups⟩)) ∧
      (decodeRoot lz slack quat noXML (binaryStart cc ic res ++ rest)).result =
        (do let (h, root) ← (codecDecode quat ⟨0, cc, ic, st.chunks, t, st.groups⟩).2; pure (.tree h root))) ∨
    (∃ st e, decodeChunks lz slack (rest.length + 1) (loop0 cc ic res) rest = (st, .err e) ∧
      decodeFile lz slack noXML false (binaryStart cc ic res ++ rest) = (st.warns, st.stats, .err e) ∧
      (decodeRoot lz slack quat noXML (binaryStart cc ic res ++ rest)).result = .err e) ∨
    (∃ st, decodeChunks lz slack (rest.length + 1) (loop0 cc ic res) rest = (st, .panic) ∧
      decodeFile lz slack noXML false (binaryStart cc ic res ++ rest) = (st.warns, st.stats, .panic) ∧
      (decodeRoot lz slack quat noXML (binaryStart cc ic res ++ rest)).result = .panic) := by
  have hf : decodeFile lz slack noXML false (binaryStart cc ic res ++ rest) =
      ((decodeChunks lz slack (rest.length + 1) (loop0 cc ic res) rest).1.warns,
       (decodeChunks lz slack (rest.length + 1) (loop0 cc ic res) rest).1.stats,
       match (decodeChunks lz slack (rest.length + 1) (loop0 cc ic res) rest).2 with
       | .panic => .panic
       | .err e => .err e
       | .ok trailing => .ok (.model ⟨0, cc, ic, (decodeChunks lz slack (rest.length + 1) (loop0 cc ic res) rest).1.chunks,
           trailing, (decodeChunks lz slack (rest.length + 1) (loop0 cc ic res) rest).1.groups⟩)) := by
    simp only [decodeFile, readStart_start h, Bool.false_eq_true, if_false, loop0]
    rfl
  rw [hf, decodeRoot_start h]
  rcases decodeChunks lz slack (rest.length + 1) (loop0 cc ic res) rest with ⟨st, t | e | _⟩
  · exact .inl ⟨st, t, rfl, rfl, rfl⟩
  · exact .inr (.inl ⟨st, e, rfl, rfl, rfl⟩)
  · exact .inr (.inr ⟨st, rfl, rfl, rfl⟩)

/-- A file that is read as a model starts as a binary file does. -/
theorem start_of_model {lz : LZ4} {slack noXML b ws s f} (h : decodeFile lz slack noXML false b = (ws, s, .ok (.model f))) :
    ∃ cc ic res rest, res.length = 8 ∧ b = binaryStart cc ic res ++ rest := by
  rcases hs : readStart noXML b with st | e | _
  · cases st with
    | xml c => simp [decodeFile, hs] at h
    | binary cc ic res rest =>
      obtain ⟨hb, hres⟩ := (readStart_binary_iff noXML b cc ic res rest).1 hs
      exact ⟨cc, ic, res, rest, hres, by rw [binaryStart_eq]; exact hb⟩
  · simp [decodeFile, hs] at h
  · simp [decodeFile, hs] at h

theorem modelOk_of_decodeFile {lz : LZ4} {slack noXML b ws s f} (h : decodeFile lz slack noXML false b = (ws, s, .ok (.model f))) :
    ModelOk f := by
  obtain ⟨cc, ic, res, rest, h1, rfl⟩ := start_of_model h
  rcases decode_start (lz := lz) (slack := slack) (quat := fun _ _ _ _ => default) (noXML := noXML) (cc := cc) (ic := ic) h1 rest with
    ⟨st, t, g1, g2, -⟩ | ⟨st, e, g1, g2, -⟩ | ⟨st, g1, g2, -⟩
  · rw [h] at g2
    simp only [Prod.mk.injEq, Res.ok.injEq, Decoded.model.injEq] at g2
    rw [g2.2.2]
    exact modelOk_of_chunks g1
  · rw [h] at g2; simp at g2
  · rw [h] at g2; simp at g2

/-- The frames of the file contain one that makes the decoder panic: its announced length is too great, or it is a PROP chunk
with CFrames of which the positions are cut off. All frames before it can be read, and none is an END chunk. -/
def FramePanics (lz : LZ4) (slack : Bytes → Nat) (rest : Bytes) : Prop :=
  ∃ raws b', ReadsFrames lz rest raws b' ∧ (HugeFrame b' ∨ ∃ raw r, rawDecode lz b' = .ok (raw, r) ∧ CutFrame slack raws raw)

/-- The decoder gets to a PROP chunk of a valid class, in which an Optional that is present holds a reference, a shared string,
or an Optional that is absent. -/
def OptionalPanics (f : FormatModel) : Prop :=
  ∃ pre c post p a, ReachesChunk f pre c post ∧ c.body = .prop p ∧ Within p.classID f.classCount ∧ p.props = some a ∧ BadOptional a

/-- What `decodeRoot` returns for a file that is read as the model `f`. -/
theorem decodeRoot_of_model {lz : LZ4} {slack quat noXML b ws s f} (h : decodeFile lz slack noXML false b = (ws, s, .ok (.model f))) :
    (decodeRoot lz slack quat noXML b).result = (do let (h, root) ← (codecDecode quat f).2; pure (.tree h root)) := by
  simp only [decodeRoot, h]

/-- C20: the decoder accepts a file that it can read exactly if every chunk up to the END chunk meets the demands of `Accepts`:
the ids of classes and instances are in range, the instances are declared once, no later INST chunk has the same class, a service
has the markers, an Optional does not hold what it cannot hold, and the lists of children and parents have equal lengths. If some
chunk does not, decoding fails or panics, as told by `OptionalPanics`. -/
theorem C20_accepts_iff {lz : LZ4} {slack : Bytes → Nat} {quat : Quat} {noXML : Bool} {b : Bytes} {ws s f}
    (h : decodeFile lz slack noXML false b = (ws, s, .ok (.model f))) :
    ((∃ o, (decodeRoot lz slack quat noXML b).result = .ok o) ↔
      ∀ pre c post, beforeEnd f.chunks = pre ++ c :: post → Accepts f.classCount f.instanceCount pre c post) ∧
    ((decodeRoot lz slack quat noXML b).result = .panic ↔ OptionalPanics f) := by
  rw [decodeRoot_of_model h]
  obtain ⟨h1, h2⟩ := codecDecode_exact (quat := quat) (modelOk_of_decodeFile h)
  rcases accepted_or f with ha | ⟨pre, c, post, hr, ha⟩
  · obtain ⟨x, hx⟩ := h1 ha
    rw [hx]
    refine ⟨⟨fun _ => ha, fun _ => ⟨_, rfl⟩⟩, nofun, ?_⟩
    rintro ⟨pre, c, post, p, a, g1, g2, g3, g4, g5⟩
    have := (h2 pre c post g1).1 ⟨p, a, g2, g3, g4, g5⟩
    rw [hx] at this
    cases this
  · have hno : ¬ ∀ pre c post, beforeEnd f.chunks = pre ++ c :: post → Accepts f.classCount f.instanceCount pre c post :=
      fun h => ha (h pre c post hr.1)
    by_cases hp : PanicsOn f.classCount c
    · rw [(h2 pre c post hr).1 hp]
      refine ⟨⟨fun ⟨o, h⟩ => (by cases h), fun h => absurd h hno⟩, fun _ => ?_, fun _ => rfl⟩
      obtain ⟨p, a, g1, g2, g3, g4⟩ := hp
      exact ⟨pre, c, post, p, a, hr, g1, g2, g3, g4⟩
    · obtain ⟨e, he⟩ := (h2 pre c post hr).2 ha hp
      rw [he]
      refine ⟨⟨fun ⟨o, h⟩ => (by cases h), fun h => absurd h hno⟩, nofun, ?_⟩
      rintro ⟨pre', c', post', p, a, g1, g2, g3, g4, g5⟩
      have := (h2 pre' c' post' g1).1 ⟨p, a, g2, g3, g4, g5⟩
      rw [he] at this
      cases this

/-- C20: a file that starts as a binary file is read as a model exactly if its frames can be read up to an END chunk and no PROP
chunk before it has CFrames of which the positions are cut off. Nothing else makes reading fail: chunks that cannot be decoded
are kept. -/
theorem C20_reads_iff {lz : LZ4} (hlz : lz.Lossless) {slack : Bytes → Nat} {noXML : Bool} {cc ic : BitVec 32} {res : Bytes}
    (h : res.length = 8) (rest : Bytes) :
    (∃ ws s f, decodeFile lz slack noXML false (binaryStart cc ic res ++ rest) = (ws, s, .ok (.model f))) ↔
    ∃ raws b' raw r, ReadsFrames lz rest raws b' ∧ rawDecode lz b' = .ok (raw, r) ∧ raw.sig = sigEND ∧
      ∀ pre c post, raws = pre ++ c :: post → ¬ CutFrame slack pre c := by
  have key := decodeChunks_ok_iff hlz (slack := slack) (rest.length + 1) [] (loop0 cc ic res) rest (by omega)
    (by intro id; rfl)
  simp only [EndsFrom, List.nil_append] at key
  rw [← key]
  rcases decode_start (lz := lz) (slack := slack) (quat := fun _ _ _ _ => default) (noXML := noXML) (cc := cc) (ic := ic) h rest with
    ⟨st, t, g1, g2, -⟩ | ⟨st, e, g1, g2, -⟩ | ⟨st, g1, g2, -⟩ <;> rw [g1, g2] <;> simp

/-- C21: exactly when decoding panics, for every byte stream: a binary file with a bad frame, or one that can be read and has an
Optional that holds what it cannot hold. -/
theorem C21_panics_iff (lz : LZ4) (hlz : lz.Lossless) (slack : Bytes → Nat) (quat : Quat) (noXML : Bool) (b : Bytes) :
    (decodeRoot lz slack quat noXML b).result = .panic ↔
    (∃ cc ic res rest, res.length = 8 ∧ b = binaryStart cc ic res ++ rest ∧ FramePanics lz slack rest) ∨
    ∃ ws s f, decodeFile lz slack noXML false b = (ws, s, .ok (.model f)) ∧ OptionalPanics f := by
  by_cases hb : ∃ cc ic res rest, res.length = 8 ∧ b = binaryStart cc ic res ++ rest
  · obtain ⟨cc, ic, res, rest, hres, rfl⟩ := hb
    have key := decodeChunks_panic_iff hlz (slack := slack) (rest.length + 1) [] (loop0 cc ic res) rest (by omega)
      (by intro id; rfl)
    simp only [PanicsFrom, List.nil_append] at key
    have uniq : ∀ cc' ic' res' rest', res'.length = 8 → binaryStart cc ic res ++ rest = binaryStart cc' ic' res' ++ rest' →
        rest' = rest := by
      intro cc' ic' res' rest' h1 h2
      have a := readStart_start (noXML := noXML) (cc := cc) (ic := ic) hres rest
      rw [h2, readStart_start h1] at a
      cases a
      rfl
    have key' : (∃ cc' ic' res' rest', res'.length = 8 ∧ binaryStart cc ic res ++ rest = binaryStart cc' ic' res' ++ rest' ∧
        FramePanics lz slack rest') ↔ (decodeChunks lz slack (rest.length + 1) (loop0 cc ic res) rest).2 = .panic := by
      rw [key]
      constructor
      · rintro ⟨cc', ic', res', rest', h1, h2, h3⟩
        rw [uniq cc' ic' res' rest' h1 h2] at h3
        exact h3
      · intro h
        exact ⟨cc, ic, res, rest, hres, rfl, h⟩
    rw [key']
    rcases decode_start (lz := lz) (slack := slack) (quat := quat) (noXML := noXML) (cc := cc) (ic := ic) hres rest with
      ⟨st, t, g1, g2, -⟩ | ⟨st, e, g1, g2, g3⟩ | ⟨st, g1, g2, g3⟩
    · rw [(C20_accepts_iff g2).2, g1]
      constructor
      · intro h; exact .inr ⟨_, _, _, g2, h⟩
      · rintro (h | ⟨ws, s, f, h1, h2⟩)
        · cases h
        · rw [g2] at h1
          cases h1
          exact h2
    · rw [g3, g1]
      refine ⟨nofun, ?_⟩
      rintro (h | ⟨ws, s, f, h1, -⟩)
      · cases h
      · rw [g2] at h1; simp at h1
    · rw [g3, g1]
      exact ⟨fun _ => .inl rfl, fun _ => rfl⟩
  · constructor
    · intro h
      exfalso
      rcases hs : readStart noXML b with st | e | _
      · cases st with
        | xml c => simp [decodeRoot, decodeFile, hs] at h
        | binary cc ic res rest =>
          obtain ⟨h1, h2⟩ := (readStart_binary_iff noXML b cc ic res rest).1 hs
          exact hb ⟨cc, ic, res, rest, h2, by rw [binaryStart_eq]; exact h1⟩
      · simp [decodeRoot, decodeFile, hs] at h
      · exact readStart_ne_panic noXML b hs
    · rintro (⟨cc, ic, res, rest, h1, h2, -⟩ | ⟨ws, s, f, h, -⟩)
      · exact absurd ⟨cc, ic, res, rest, h1, h2⟩ hb
      · exact absurd (start_of_model h) hb

/-! ### Examples -/

/-- The file with the Part 1 in the Part 0 decodes, so its chunks meet the demands. -/
example : ∀ pre c post, beforeEnd ((codecEx [0, 1] [1, 0] [0, -1]).chunks.map (Chunk.back true)) = pre ++ c :: post →
    Accepts 1 2 pre c post := by
  obtain ⟨⟨ws, s, h⟩, h'⟩ := linkFile_ok
  exact (C20_accepts_iff (quat := fun _ _ _ _ => default) h).1.1 ⟨_, h'⟩

/-- The file of `C21_length_overflow_panics` has a frame with a length that is too great. -/
example (lz : LZ4) (slack : Bytes → Nat) : FramePanics lz slack [0, 0, 0, 0, 255, 255, 255, 255, 0, 0, 0, 0, 0, 0, 0, 0] :=
  ⟨[], _, .nil, .inl ⟨0, 0xFFFFFFFF#32, 0, 0, [], by decide, by decide⟩⟩

/-- The file of `C21_short_cframe_panics` has a PROP chunk with two rotations and one position. -/
example (lz : LZ4) : FramePanics lz (fun _ => 0)
    (plainFrame sigINST [0, 0, 0, 0, 1, 0, 0, 0, 0x41, 0, 2, 0, 0, 0, 0, 0, 0, 0, 0, 0, 0, 2] ++
      (propP ([0x10, 2, 2] ++ List.replicate 12 0#8) ++ endFrame)) := by
  refine ⟨[⟨sigINST, false, [0, 0, 0, 0, 1, 0, 0, 0, 0x41, 0, 2, 0, 0, 0, 0, 0, 0, 0, 0, 0, 0, 2]⟩],
    propP ([0x10, 2, 2] ++ List.replicate 12 0#8) ++ endFrame, .snoc (raws := []) .nil rfl (by decide), .inr ⟨_, _, rfl, rfl, ?_⟩⟩
  refine ⟨0, 1, [0x50], [0x10, 2, 2] ++ List.replicate 12 0#8, ⟨0, str "A", [0, 1], false, []⟩, by decide, rfl, by decide, ?_⟩
  exact ⟨List.replicate 12 0#8, by decide, by decide⟩

/-- With a second position, or with spare capacity for it, that frame is not one that makes the decoder panic. -/
example : ¬ CutPositions 0 2 ([0x10, 2, 2] ++ List.replicate 24 0#8) ∧ ¬ CutPositions 12 2 ([0x10, 2, 2] ++ List.replicate 12 0#8) := by
  constructor
  · rintro ⟨r, h1, h2⟩
    have : afterRotations 36 2 ([2, 2] ++ List.replicate 24 0#8) = some (List.replicate 24 0#8) := by decide
    rw [show ([2, 2] ++ List.replicate 24 0#8 : Bytes) = [2, 2] ++ List.replicate 24 0#8 from rfl] at this
    cases this.symm.trans h1
    exact absurd h2 (by decide)
  · rintro ⟨r, h1, h2⟩
    have : afterRotations 36 2 ([2, 2] ++ List.replicate 12 0#8) = some (List.replicate 12 0#8) := by decide
    cases this.symm.trans h1
    exact absurd h2 (by decide)

/-- An Optional that holds a reference is one that makes the decoder panic, if it is present. -/
example : BadOptional (.optional (.plain .reference [.reference 0]) [true]) ∧
    ¬ BadOptional (.optional (.plain .reference [.reference 0]) [false]) := by
  constructor
  · exact ⟨0, rfl, .inr ⟨.reference 0, rfl, .inl rfl⟩⟩
  · rintro ⟨i, h, -⟩
    cases i <;> simp at h

/-- An INST chunk is not accepted if it declares an instance a second time. -/
example : ¬ Accepts 1 2 [] ⟨.inst ⟨0, str "A", [0, 0], false, []⟩, false⟩ [] := by
  rintro ⟨-, -, h, -⟩
  exact absurd h (by decide)

end Props

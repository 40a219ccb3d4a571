import Verif.Rbxl.NoPanic
/-!
# C21: binary decoding and panics

`decodeRoot` models `Decoder.Decode`; `.panic` stands for a Go run-time panic.  `slack` gives the
spare capacity of the buffers, on which reslicing beyond the length depends.
-/
namespace Props
open Go Rbxfile Rbxl

/-- The frames of a stream, up to the END chunk or to where reading fails,
* do not announce a compressed length within 4 of 2^32, and
* are not PROP chunks with an array of type CFrame (10), CFrameQuat (11) or Optional (1E).

`Reaches lz rest b'` ranges over the positions of the stream at which a frame is read, whether or not
the frame is complete, and whether or not the stream is well-formed. -/
def SafeStream (lz : LZ4) (rest : Bytes) : Prop :=
  ∀ b', Reaches lz rest b' →
    (∀ n, compLenField b' = some n → n < 2 ^ 32 - 4) ∧
    ∀ raw r, rawDecode lz b' = .ok (raw, r) → raw.sig = sigPROP → ∀ tb array,
      propArray raw.payload = some (tb :: array) → tb ∉ [0x10#8, 0x11#8, 0x1E#8]

/-- Part of C21: decoding returns a result or an error, for every byte stream `b` that is not a
binary file, or whose frames are safe in the sense of `SafeStream`. Missing: the excluded frames, for
which the code does panic (see the theorems below). -/
theorem C21_no_panic_partial (lz : LZ4) (hlz : lz.Lossless) (slack : Bytes → Nat) (quat : Quat)
    (noXML : Bool) (b : Bytes)
    (hsafe : ∀ cc ic res rest, res.length = 8 → b = binaryStart cc ic res ++ rest →
      SafeStream lz rest) :
    (decodeRoot lz slack quat noXML b).result ≠ .panic := by
  rcases hs : readStart noXML b with st | e | _
  · cases st with
    | xml c => simp [decodeRoot, decodeFile, hs]
    | binary cc ic res rest =>
      obtain ⟨hb, hres⟩ := (readStart_binary_iff noXML b cc ic res rest).1 hs
      have hb' : b = binaryStart cc ic res ++ rest := by rw [binaryStart_eq]; exact hb
      rw [hb', decodeRoot_start hres]
      have key := decodeChunks_ne_panic hlz (slack := slack) (rest.length + 1) (loop0 cc ic res) rest
        (by omega) ⟨by simp [loop0], by simp [loop0]⟩ (by
          intro b' hr
          refine ⟨rawDecode_ne_panic hlz (hsafe cc ic res rest hres hb' b' hr).1, ?_⟩
          intro raw r hd hsig a ha tb array t hcons hty
          subst hcons
          have hn := (hsafe cc ic res rest hres hb' b' hr).2 raw r hd hsig tb array ha
          have := (C56_ids tb).2.2 t hty
          refine ⟨?_, ?_, ?_⟩ <;> rintro rfl <;> subst this <;> simp [TypeID.toByte] at hn)
      simp only [decodeOut]
      rcases hd : decodeChunks lz slack (rest.length + 1) (loop0 cc ic res) rest with ⟨st, _ | _ | _⟩
      · rename_i tr
        have hc := codecDecode_ne_panic (quat := quat)
          (f := ⟨0, cc, ic, st.chunks, tr, st.groups⟩) (key.2 st tr hd) rfl rfl
        simp only
        exact Res.bind_ne_panic hc fun _ _ => by simp
      · simp
      · rw [hd] at key; exact absurd rfl key.1
  · simp [decodeRoot, decodeFile, hs]
  · exact absurd hs (readStart_ne_panic noXML b)

/-- The bytes of a file with the given frames. -/
def fileOf (cc ic : BitVec 32) (frames : Bytes) : Bytes :=
  binaryStart cc ic (List.replicate 8 0#8) ++ frames

/-- An INST chunk declaring one instance with id 0 of class 0, "A". -/
def instA : Bytes := plainFrame sigINST
  ([0, 0, 0, 0, 1, 0, 0, 0, 0x41, 0, 1, 0, 0, 0, 0, 0, 0, 0])

/-- A PROP chunk of class 0 with the name "P" and the given array. -/
def propP (array : Bytes) : Bytes := plainFrame sigPROP
  ([0, 0, 0, 0, 1, 0, 0, 0, 0x50] ++ array)

/-- The END chunk. -/
def endFrame : Bytes := plainFrame sigEND endTag

/-- A file with an instance, a boolean property of it, and an END chunk is safe. -/
example : SafeStream LZ4.stored (instA ++ (propP [0x02, 1] ++ endFrame)) := by
  have r1 : rawDecode LZ4.stored (instA ++ (propP [0x02, 1] ++ endFrame)) =
    .ok (⟨sigINST, false, [0, 0, 0, 0, 1, 0, 0, 0, 0x41, 0, 1, 0, 0, 0, 0, 0, 0, 0]⟩,
      propP [0x02, 1] ++ endFrame) := rfl
  have r2 : rawDecode LZ4.stored (propP [0x02, 1] ++ endFrame) =
    .ok (⟨sigPROP, false, [0, 0, 0, 0, 1, 0, 0, 0, 0x50, 0x02, 1]⟩, endFrame) := rfl
  have r3 : rawDecode LZ4.stored endFrame = .ok (⟨sigEND, false, endTag⟩, []) := rfl
  intro b' h
  cases h with
  | refl =>
    refine ⟨by rintro n ⟨⟩; decide, ?_⟩
    intro raw r h hs; rw [r1] at h; cases h; exact absurd hs (by decide)
  | step h1 h2 h =>
    rw [r1] at h1; cases h1
    cases h with
    | refl =>
      refine ⟨by rintro n ⟨⟩; decide, ?_⟩
      intro raw r h hs tb a ha; rw [r2] at h; cases h; cases ha; decide
    | step h1 h2 h =>
      rw [r2] at h1; cases h1
      cases h with
      | refl =>
        refine ⟨by rintro n ⟨⟩; decide, ?_⟩
        intro raw r h hs; rw [r3] at h; cases h; exact absurd hs (by decide)
      | step h1 h2 h => rw [r3] at h1; cases h1; exact absurd rfl h2

/-- That file decodes. -/
example : (decodeRoot LZ4.stored (fun _ => 0) (fun _ _ _ _ => default) true
    (fileOf 1 1 (instA ++ (propP [0x02, 1] ++ endFrame)))).result = .ok (.tree
      [(0, { className := [0x41], properties := [([0x50], .bool true)] })] {}) := by
  rw [fileOf, decodeRoot_start (by simp)]
  rfl

/-- The code panics when a frame announces a compressed length of 2^32-1: adding 4 wraps around, and
the buffer is too short for the length prefix handed to lz4. -/
theorem C21_length_overflow_panics (lz : LZ4) (slack : Bytes → Nat) (quat : Quat) (noXML : Bool) :
    (decodeRoot lz slack quat noXML
      (fileOf 0 0 [0, 0, 0, 0, 255, 255, 255, 255, 0, 0, 0, 0, 0, 0, 0, 0])).result = .panic := by
  rw [fileOf, decodeRoot_start (by simp)]
  rfl

/-- The code panics when an array of CFrames ends before its positions: 12 bytes for each instance
are taken from a buffer that need not have them. -/
theorem C21_short_cframe_panics (lz : LZ4) (quat : Quat) (noXML : Bool) :
    (decodeRoot lz (fun _ => 0) quat noXML (fileOf 1 2
      (plainFrame sigINST [0, 0, 0, 0, 1, 0, 0, 0, 0x41, 0, 2, 0, 0, 0, 0, 0, 0, 0, 0, 0, 0, 2] ++
        (propP ([0x10, 2, 2] ++ List.replicate 12 0#8) ++ endFrame)))).result = .panic := by
  rw [fileOf, decodeRoot_start (by simp)]
  rfl

/-- The code panics when an Optional Reference is present. -/
theorem C21_optional_reference_panics (lz : LZ4) (slack : Bytes → Nat) (quat : Quat) (noXML : Bool) :
    (decodeRoot lz slack quat noXML (fileOf 1 1 (instA ++
      (propP [0x1E, 0x13, 0, 2, 0, 1, 0, 0, 0, 0] ++ endFrame)))).result = .panic := by
  rw [fileOf, decodeRoot_start (by simp)]
  rfl

/-- A PROP chunk that is skipped by a decoder that stops at the codec: the same file without the
offending array decodes. -/
example (lz : LZ4) (slack : Bytes → Nat) (quat : Quat) (noXML : Bool) :
    (decodeRoot lz slack quat noXML (fileOf 1 1 (instA ++ endFrame))).result =
      .ok (.tree [(0, { className := [0x41] })] {}) := by
  rw [fileOf, decodeRoot_start (by simp)]
  rfl

end Props

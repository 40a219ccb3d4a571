import Verif.Rbxl.Size
import Verif.Rbxlx.Size
import Verif.Rbxlx.GoFloat
import Verif.Props.DecodeBinary
import Verif.Props.DecodeExact
import Verif.Props.Framing
/-!
# C103: what is decoded is no larger than the file

The size of a tree (`Spec.treeSize` in `Verif/Spec/Size.lean`) counts the instances, their properties with the texts and
keypoints in them, the children, the instances at the root and the metadata.  The counts in the header of a file, the lengths
of its arrays and its links cannot make the decoder build more than the payloads of the chunks amount to.
-/
namespace Props
open Go Rbxfile Rbxl Spec

/-- A file that is decoded to a tree consists of a header, frames and a rest; the payloads of the frames are at least as
large as the tree. -/
theorem decoded_frames {lz : LZ4} {slack quat noXML b f h root} (d : DecodesTo lz slack quat noXML b f h root) :
    ∃ cc ic res rest raws trailing, res.length = 8 ∧ b = binaryStart cc ic res ++ rest ∧ Frames lz rest raws trailing ∧
      (∃ st, runRaws slack (loop0 cc ic res) raws = .ok st ∧ f.chunks = st.chunks) ∧
      treeSize h root ≤ (raws.map fun r => r.payload.length).sum := by
  obtain ⟨ws, s, e⟩ := d.chunks
  obtain ⟨cc, ic, res, rest, h1, rfl⟩ := start_of_model e
  rcases decode_start (lz := lz) (slack := slack) (quat := quat) (noXML := noXML) (cc := cc) (ic := ic) h1 rest with
    ⟨st, t, g1, g2, -⟩ | ⟨st, e', g1, g2, -⟩ | ⟨st, g1, g2, -⟩
  · rw [e] at g2
    simp only [Prod.mk.injEq, Res.ok.injEq, Decoded.model.injEq] at g2
    obtain ⟨raws, hf, hr⟩ := decodeChunks_ok g1
    refine ⟨cc, ic, res, rest, raws, t, h1, rfl, hf, ⟨st, hr, by rw [g2.2.2]⟩, ?_⟩
    obtain ⟨ws', hc⟩ := d.codec
    have h2 := codecDecode_size hc
    have h3 := runRaws_size _ _ _ hr
    have h4 : f.chunks = st.chunks := by rw [g2.2.2]
    have h5 : chunksSize (loop0 cc ic res).chunks = 0 := rfl
    rw [h4] at h2; omega
  · rw [e] at g2; simp at g2
  · rw [e] at g2; simp at g2

theorem frames_length {lz : LZ4} {b raws rest} (hf : Frames lz b raws rest) :
    16 + (raws.map fun r => r.payload.length).sum ≤
      (raws.flatMap fun r => plainFrame r.sig r.payload).length := by
  have one : ∀ r : Raw, (plainFrame r.sig r.payload).length = 16 + r.payload.length := by
    intro r; simp [plainFrame, le32]; omega
  induction hf with
  | last h1 h2 => simp [one]
  | cons h1 h2 _ ih =>
    simp only [List.map_cons, List.sum_cons, List.flatMap_cons, List.length_append, one]; omega

theorem binaryStart_length {cc ic : BitVec 32} {res : Bytes} (h : res.length = 8) : (binaryStart cc ic res).length = 32 := by
  have : (str "<roblox!").length = 8 := by decide
  simp only [binaryStart, List.length_append, this, h, le32]; rfl

/-- C103: for every file that `Decoder.Decode` accepts as a binary file, `Decoder.Decompress` gives a file as well, and the
tree is smaller than that file by at least the 48 bytes of the header and the frame of the last chunk. -/
theorem C103_decompressed {lz : LZ4} (hlz : lz.Lossless) {slack : Bytes → Nat} {quat : Quat} {noXML : Bool} {b : Bytes}
    {h : Heap Id} {root : Root Id} (e : (decodeRoot lz slack quat noXML b).result = .ok (.tree h root)) :
    ∃ ws out, decompress lz noXML b = (ws, .ok out) ∧ treeSize h root + 48 ≤ out.length := by
  obtain ⟨f, d⟩ := decodesTo_of_tree e
  obtain ⟨cc, ic, res, rest, raws, t, h1, rfl, hf, _, hs⟩ := decoded_frames d
  refine ⟨_, _, C09_decompress lz hlz noXML cc ic res h1 rest raws t hf, ?_⟩
  have := frames_length hf
  simp only [List.length_append, binaryStart_length (cc := cc) (ic := ic) (res := List.replicate 8 0#8) (by simp)]
  omega

theorem runRaws_flags {slack : Bytes → Nat} : ∀ (raws : List Raw) (st st' : LoopState), runRaws slack st raws = .ok st' →
    st'.chunks.map Chunk.compressed = st.chunks.map Chunk.compressed ++ raws.map Raw.compressed := by
  intro raws
  induction raws with
  | nil => intro st st' h; simp [runRaws] at h; simp [h]
  | cons r raws ih =>
    intro st st' h
    simp only [runRaws, Res.bind_eq_ok] at h
    obtain ⟨⟨st1, fl⟩, h1, h2⟩ := h
    have e2 := ih _ _ h2
    have e1 : st1.chunks.map Chunk.compressed = st.chunks.map Chunk.compressed ++ [r.compressed] := by
      simp only [stepChunk] at h1
      split at h1
      · simp only [Res.ok.injEq, Prod.mk.injEq] at h1
        rw [← h1.1]; simp
      · cases h1
      · simp only [Res.ok.injEq, Prod.mk.injEq] at h1
        rw [← h1.1]; simp
      · simp only [Res.ok.injEq, Prod.mk.injEq] at h1
        rw [← h1.1]; simp
    rw [e2]
    dsimp only
    rw [e1]; simp

theorem rawDecode_plain_length {lz : LZ4} {b : Bytes} {raw : Raw} {rest : Bytes} (h : rawDecode lz b = .ok (raw, rest))
    (hc : raw.compressed = false) : 16 + raw.payload.length + rest.length = b.length := by
  simp only [rawDecode, rd_bind, Res.bind_eq_ok] at h
  obtain ⟨⟨sig, r1⟩, h1, ⟨cl, r2⟩, h2, ⟨dl, r3⟩, h3, ⟨rv, r4⟩, h4, h⟩ := h
  have e1 := num32_size h1
  have e2 := num32_size h2
  have e3 := num32_size h3
  have e4 := num32_size h4
  split at h
  · simp only [rd_bind, Res.bind_eq_ok, rd_pure, Res.ok.injEq, Prod.mk.injEq] at h
    obtain ⟨⟨p, r5⟩, h5, rfl, rfl⟩ := h
    have := takeN_size h5
    dsimp only at *; omega
  · split at h
    · simp [liftRes] at h
    · simp only [rd_bind, Res.bind_eq_ok, rd_pure, Res.ok.injEq, Prod.mk.injEq] at h
      obtain ⟨_, _, _, _, rfl, _⟩ := h
      cases hc

theorem frames_plain_length {lz : LZ4} {b raws rest} (hf : Frames lz b raws rest) (hc : ∀ r ∈ raws, r.compressed = false) :
    16 + (raws.map fun r => r.payload.length).sum + rest.length ≤ b.length := by
  induction hf with
  | last h1 h2 =>
    have := rawDecode_plain_length h1 (hc _ (List.mem_cons_self ..))
    simp; omega
  | cons h1 h2 _ ih =>
    have := rawDecode_plain_length h1 (hc _ (List.mem_cons_self ..))
    have := ih fun r hr => hc r (List.mem_cons_of_mem _ hr)
    simp only [List.map_cons, List.sum_cons]; omega

/-- C103: if none of the chunks of the file is compressed, the tree is smaller than the file itself. -/
theorem C103_uncompressed {lz : LZ4} {slack : Bytes → Nat} {quat : Quat} {noXML : Bool} {b : Bytes} {f : FormatModel}
    {h : Heap Id} {root : Root Id} (d : DecodesTo lz slack quat noXML b f h root) (hc : ∀ c ∈ f.chunks, c.compressed = false) :
    treeSize h root + 48 ≤ b.length := by
  obtain ⟨cc, ic, res, rest, raws, t, h1, rfl, hf, ⟨st, hr, hst⟩, hs⟩ := decoded_frames d
  have hfl := runRaws_flags _ _ _ hr
  have hc' : ∀ r ∈ raws, r.compressed = false := by
    intro r hr'
    have : r.compressed ∈ st.chunks.map Chunk.compressed := by
      rw [hfl]; exact List.mem_append_right _ (List.mem_map_of_mem hr')
    obtain ⟨c, hcm, hce⟩ := List.mem_map.1 this
    rw [← hce]; exact hc c (hst ▸ hcm)
  have := frames_plain_length hf hc'
  rw [List.length_append, binaryStart_length h1]; omega

/-- C103: the number of instances, however great the counts in the header are, is at most a quarter of the length of the
decompressed file. -/
theorem C103_instances {lz : LZ4} (hlz : lz.Lossless) {slack : Bytes → Nat} {quat : Quat} {noXML : Bool} {b : Bytes}
    {h : Heap Id} {root : Root Id} (e : (decodeRoot lz slack quat noXML b).result = .ok (.tree h root)) :
    ∃ ws out, decompress lz noXML b = (ws, .ok out) ∧ 4 * h.length < out.length := by
  obtain ⟨ws, out, h1, h2⟩ := C103_decompressed hlz e
  refine ⟨ws, out, h1, ?_⟩
  have : 4 * h.length ≤ (h.map fun pi => instSize pi.2).sum := by
    clear h1 h2 e
    induction h with
    | nil => simp
    | cons a h ih => simp only [List.length_cons, List.map_cons, List.sum_cons, instSize] at *; omega
  unfold treeSize at h2
  omega

/-- C103: the tree that is decoded from an XML file is no larger than the file. -/
theorem C103_xml (F : FloatText) (discard : Bool) {s : Bytes} {h : Heap Nat} {root : Root Nat}
    (e : Rbxlx.decode F discard s = .ok (h, root)) : treeSize h root ≤ s.length := Rbxlx.decode_size e

/-! ### examples -/

/-- The theorems apply to a file with two Parts: its size is 26, and the file has 172 bytes. -/
example : treeSize (ρ := Id) [(0, { className := str "Part", children := [1], properties := [(str "Link", .reference (some 0))] }),
      (1, { className := str "Part", properties := [(str "Link", .reference none)] })] { instances := [0] } = 26 ∧
    (linkFile [1, 0] [0, -1]).length = 172 ∧ 26 + 48 ≤ (linkFile [1, 0] [0, -1]).length := by
  refine ⟨by decide, by decide +kernel, ?_⟩
  have := C103_uncompressed linkFile_ok (by decide +kernel)
  exact this

/-- An XML file with an instance with a string, a link and metadata. -/
def sizeDoc : Bytes := str "<roblox version=\"4\"><Meta name=\"k\">v</Meta><Item class=\"A\" referent=\"R\"><Properties><string name=\"P\">xyz</string><Ref name=\"Q\">R</Ref></Properties></Item></roblox>"

/-- Whether the result is a tree of a size. -/
def sized (n : Nat) : Res (Heap Nat × Root Nat) → Bool
  | .ok x => decide (treeSize x.1 x.2 = n)
  | _ => false

theorem sized_of {n : Nat} {r : Res (Heap Nat × Root Nat)} (h : sized n r = true) : ∃ x, r = .ok x ∧ treeSize x.1 x.2 = n := by
  cases r with
  | ok x => exact ⟨x, rfl, of_decide_eq_true h⟩
  | _ => cases h

/-- The tree that is decoded has size 27, and the file has 163 bytes. -/
example : ∃ h root, Rbxlx.decode goFloat true sizeDoc = .ok (h, root) ∧ treeSize h root = 27 ∧ sizeDoc.length = 163 ∧
    treeSize h root ≤ sizeDoc.length := by
  obtain ⟨⟨h, root⟩, e, k⟩ : ∃ x, Rbxlx.decode goFloat true sizeDoc = .ok x ∧ treeSize x.1 x.2 = 27 :=
    sized_of (by decide +kernel)
  exact ⟨h, root, e, k, by decide +kernel, C103_xml _ _ e⟩

end Props

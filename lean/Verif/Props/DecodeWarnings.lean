import Verif.Props.DecodeBinary
import Verif.Props.Framing
import Verif.Rbxl.DecodeWarnings
/-!
# C86: what the binary decoder drops, it reports

`Decoder.Decode` returns a warning beside the tree.  `dropped` and `Reports` (`Verif/Spec/DecodeWarnings.lean`) say which warnings a
list of chunks deserves; `DecodesTo` (C68) says that the file `b` was read as the chunks of `f` and decoded to the tree `(h, root)`.
-/
namespace Props
open Go Rbxfile Rbxl Spec

/-- What the chunk loop leaves behind. -/
theorem decodeFile_warns {lz : LZ4} {slack noXML} {b : Bytes} {ws : List Warn} {s : Stats} {f : FormatModel}
    (e : decodeFile lz slack noXML false b = (ws, s, .ok (.model f))) :
    ∃ st, st.warns = ws ∧ st.chunks = f.chunks ∧ st.groups = f.groupLookup ∧
      WarnsOk (if (b.drop 24).take 8 ≠ List.replicate 8 0#8 then [.reserve ((b.drop 24).take 8)] else []) st := by
  simp only [decodeFile] at e
  split at e
  · simp at e
  · simp at e
  · simp at e
  rename_i cc ic reserved rest hs
  obtain ⟨rfl, hres⟩ := (readStart_binary_iff noXML b cc ic reserved rest).1 hs
  have h8 : ((robloxSig ++ binaryMarker ++ binaryHeader ++ le16 0 ++ le32 cc ++ le32 ic ++ reserved ++ rest).drop 24).take 8 = reserved := by
    rw [List.append_assoc, List.drop_left' (by simp [robloxSig, binaryMarker, binaryHeader, str]), List.take_left' hres]
  rw [h8]
  simp only [Prod.mk.injEq, Bool.false_eq_true, if_false] at e
  obtain ⟨e1, -, e⟩ := e
  generalize hst : (LoopState.mk [] [] (if reserved ≠ List.replicate 8 0#8 then [.reserve reserved] else [])
      (Stats.mk false 0 cc ic 0 [])) = st0 at e e1
  have h0 : WarnsOk (if reserved ≠ List.replicate 8 0#8 then [.reserve reserved] else []) st0 := by
    subst hst
    exact ⟨⟨[], by simp, rfl, by simp⟩, by simp⟩
  rcases hd : decodeChunks lz slack (rest.length + 1) st0 rest with ⟨st', r⟩
  rw [hd] at e e1
  cases r with
  | panic => simp at e
  | err _ => simp at e
  | ok r =>
    simp only [Res.ok.injEq, Decoded.model.injEq] at e
    subst e
    exact ⟨st', e1, rfl, rfl, decodeChunks_warns _ _ _ _ _ hd h0⟩

/-- The warnings of the file: one on reserved bytes that are not zero, then for each chunk, in order, what it deserves: one on an
unknown signature, one on content that could not be decoded, and one or two on a strange END chunk. There are no others. -/
theorem C86_chunks {lz : LZ4} {slack quat noXML} {b : Bytes} {ws : List Warn} {s : Stats} {f : FormatModel}
    (e : decodeFile lz slack noXML false b = (ws, s, .ok (.model f))) :
    (decodeRoot lz slack quat noXML b).warns = ws ∧
    ∃ wss : List (List Warn),
      ws = (if (b.drop 24).take 8 ≠ List.replicate 8 0#8 then [.reserve ((b.drop 24).take 8)] else []) ++ wss.flatten ∧
      wss.length = f.chunks.length ∧ ∀ (j : Nat) (c : Chunk) w, f.chunks[j]? = some c → wss[j]? = some w → Reports j c w := by
  obtain ⟨st, rfl, h2, -, h4⟩ := decodeFile_warns e
  refine ⟨by simp only [decodeRoot, e], ?_⟩
  rw [← h2]
  exact h4.reports

/-- The warnings of the codec, in whatever way decoding ends: they are among those that the chunks deserve, in the same order. -/
theorem C86_prefix {lz : LZ4} {slack quat noXML} {b : Bytes} {ws : List Warn} {s : Stats} {f : FormatModel}
    (e : decodeFile lz slack noXML false b = (ws, s, .ok (.model f))) :
    (decodeRoot lz slack quat noXML b).codecWarns <+: dropped (beforeEnd f.chunks) ∧
    ((∃ o, (decodeRoot lz slack quat noXML b).result = .ok o) →
      (decodeRoot lz slack quat noXML b).codecWarns = dropped (beforeEnd f.chunks)) := by
  obtain ⟨st, -, h2, h3, h4⟩ := decodeFile_warns e
  simp only [decodeRoot, e]
  rcases hl : codecLoop quat f 0 f.chunks {} with ⟨st', fl⟩
  have := codecLoop_warns (quat := quat) (f := f) f.chunks [] {} st' fl hl
    (by rw [← h2, ← h3]; exact h4.known) rfl List.nodup_nil rfl
  obtain ⟨a, b⟩ := this
  rw [codecDecode, hl]
  cases fl with
  | next => exact ⟨a, fun _ => b (.inl rfl)⟩
  | stop => exact ⟨a, fun _ => b (.inr rfl)⟩
  | fail x => exact ⟨a, by rintro ⟨o, h⟩; cases h⟩
  | panic => exact ⟨a, by rintro ⟨o, h⟩; cases h⟩

/-- The warnings of the codec on a file that decodes: one for each PROP chunk whose values were not understood, and one for each
entry of a PRNT chunk whose child no earlier chunk declares, in the order of the chunks. There are no others. -/
theorem C86_dropped {lz slack quat noXML b f h root} (d : DecodesTo lz slack quat noXML b f h root) :
    (decodeRoot lz slack quat noXML b).codecWarns = dropped (beforeEnd f.chunks) := by
  obtain ⟨ws, s, e⟩ := d.chunks
  exact (C86_prefix e).2 ⟨_, d.tree⟩

theorem mem_dropped {w : CodecWarn} {cs : List Chunk} : w ∈ dropped cs ↔
    ∃ j c, cs[j]? = some c ∧ w ∈ droppedIn (declared (cs.take j)) j c := by
  simp only [dropped, List.mem_flatMap, List.mem_range]
  constructor
  · rintro ⟨j, hj, h⟩
    rw [List.getElem?_eq_getElem hj] at h
    exact ⟨j, cs[j], List.getElem?_eq_getElem hj, h⟩
  · rintro ⟨j, c, hc, h⟩
    refine ⟨j, (List.getElem?_eq_some_iff.1 hc).1, ?_⟩
    rw [hc]
    exact h

/-- The full property, of the files that decode without any warning: every chunk was understood, every PROP chunk has values for its
property, every child of a PRNT chunk is declared by an earlier chunk and has its parent, if that is declared too.

Partial: a file may drop more without a warning: see the two theorems below. -/
theorem C86_silent_partial {lz slack quat noXML b f h root} (d : DecodesTo lz slack quat noXML b f h root)
    (h1 : (decodeRoot lz slack quat noXML b).warns = []) (h2 : (decodeRoot lz slack quat noXML b).codecWarns = []) :
    (∀ ch ∈ f.chunks, (∀ s x, ch.body ≠ .unknown s x) ∧ (∀ s x, ch.body ≠ .errored s x) ∧
      (∀ x, ch.body = .end_ x → ch.compressed = false ∧ x = str "</roblox>")) ∧
    (b.drop 24).take 8 = List.replicate 8 0#8 ∧
    (∀ ch ∈ beforeEnd f.chunks, ∀ p, ch.body = .prop p → ∃ a, p.props = some a) ∧
    (∀ (j : Nat) (ch : Chunk), (beforeEnd f.chunks)[j]? = some ch → ∀ p, ch.body = .parent p →
      ∀ c ∈ p.children, c ∈ declared ((beforeEnd f.chunks).take j)) := by
  rw [C86_dropped d] at h2
  obtain ⟨ws, s, e⟩ := d.chunks
  obtain ⟨rfl, wss, a1, a2, a3⟩ := C86_chunks (quat := quat) e
  rw [h1] at a1
  have a1 := a1.symm
  rw [List.append_eq_nil_iff] at a1
  obtain ⟨b1, b2⟩ := a1
  have nil : ∀ w, w ∉ dropped (beforeEnd f.chunks) := by rw [h2]; simp
  refine ⟨?_, ?_, ?_, ?_⟩
  · intro ch hch
    obtain ⟨j, hj⟩ := List.getElem?_of_mem hch
    obtain ⟨w, hw⟩ : ∃ w, wss[j]? = some w := by
      have := (List.getElem?_eq_some_iff.1 hj).1
      exact ⟨wss[j], List.getElem?_eq_getElem (by omega)⟩
    have hr := a3 j ch w hj hw
    have hw0 : w = [] := List.flatten_eq_nil_iff.1 b2 w (List.mem_of_getElem? hw)
    subst hw0
    refine ⟨?_, ?_, ?_⟩
    · intro s x hb
      simp [Reports, hb] at hr
    · intro s x hb
      simp [Reports, hb] at hr
    · intro x hb
      simp only [Reports, hb] at hr
      have hr := hr.symm
      rw [List.append_eq_nil_iff] at hr
      obtain ⟨r1, r2⟩ := hr
      constructor
      · cases hc : ch.compressed
        · rfl
        · rw [hc] at r1; cases r1
      · by_cases hx : x = str "</roblox>"
        · exact hx
        · rw [if_pos hx] at r2; cases r2
  · by_cases hx : (b.drop 24).take 8 = List.replicate 8 0#8
    · exact hx
    · rw [if_pos hx] at b1; cases b1
  · intro ch hch p hb
    obtain ⟨j, hj⟩ := List.getElem?_of_mem hch
    cases hp : p.props with
    | some a => exact ⟨a, rfl⟩
    | none =>
      refine absurd (mem_dropped.2 ⟨j, ch, hj, ?_⟩) (nil (.noValueType j))
      simp [droppedIn, hb, hp]
  · intro j ch hj p hb c hc
    by_cases hm : c ∈ declared ((beforeEnd f.chunks).take j)
    · exact hm
    · obtain ⟨i, hi⟩ := List.getElem?_of_mem hc
      refine absurd (mem_dropped.2 ⟨j, ch, hj, ?_⟩) (nil (.childMissing j i))
      simp only [droppedIn, hb, List.mem_map, List.mem_filter, List.mem_zipIdx_iff_getElem?, decide_eq_true_eq]
      exact ⟨(c, i), ⟨hi, hm⟩, rfl⟩

/-! ### examples -/

/-- The chunks of a file that says that it has three instances, but declares only two, and whose PRNT chunk mentions the third. -/
def missingModel : FormatModel := { codecEx [0, 1] [1, 2, 0] [0, 0, -1] with instanceCount := 3 }

/-- The file. -/
def missingFile : Bytes :=
  match encodeFile LZ4.stored true missingModel with
  | .ok b => b
  | _ => []

/-- The entry for the third instance is dropped, with a warning. -/
theorem missingFile_ok : DecodesTo LZ4.stored (fun _ => 0) (fun _ _ _ _ => default) true missingFile
    { missingModel with chunks := missingModel.chunks.map (Chunk.back true) }
    [(0, { className := str "Part", children := [1], properties := [(str "Link", .reference (some 0))] }),
      (1, { className := str "Part", properties := [(str "Link", .reference none)] })] { instances := [0] } := by
  refine ⟨⟨(decodeFile LZ4.stored (fun _ => 0) true false missingFile).1,
    (decodeFile LZ4.stored (fun _ => 0) true false missingFile).2.1, ?_⟩, ?_⟩
  · decide +kernel
  · decide +kernel

example : (decodeRoot LZ4.stored (fun _ => 0) (fun _ _ _ _ => default) true missingFile).codecWarns = [.childMissing 2 1] := by
  rw [C86_dropped missingFile_ok]
  decide +kernel

/-- A file without warnings. -/
example : (decodeRoot LZ4.stored (fun _ => 0) (fun _ _ _ _ => default) true (linkFile [1, 0] [0, -1])).warns = [] ∧
    (decodeRoot LZ4.stored (fun _ => 0) (fun _ _ _ _ => default) true (linkFile [1, 0] [0, -1])).codecWarns = [] := by
  decide +kernel

/-- C86: an instance whose parent does not exist is dropped without a warning: the file declares two Parts, the tree has one. -/
theorem C86_orphan_fails : ∃ h, DecodesTo LZ4.stored (fun _ => 0) (fun _ _ _ _ => default) true (linkFile [1, 0] [7, -1])
      { codecEx [0, 1] [1, 0] [7, -1] with chunks := (codecEx [0, 1] [1, 0] [7, -1]).chunks.map (Chunk.back true) } h { instances := [0] } ∧
    (decodeRoot LZ4.stored (fun _ => 0) (fun _ _ _ _ => default) true (linkFile [1, 0] [7, -1])).warns = [] ∧
    (decodeRoot LZ4.stored (fun _ => 0) (fun _ _ _ _ => default) true (linkFile [1, 0] [7, -1])).codecWarns = [] ∧
    h.map Prod.fst = [0, 1] ∧ ∀ p ∈ h, p.2.children = [] := by
  refine ⟨[(0, { className := str "Part", properties := [(str "Link", .reference (some 0))] }),
      (1, { className := str "Part", properties := [(str "Link", .reference none)] })], ⟨⟨
    (decodeFile LZ4.stored (fun _ => 0) true false (linkFile [1, 0] [7, -1])).1,
    (decodeFile LZ4.stored (fun _ => 0) true false (linkFile [1, 0] [7, -1])).2.1, ?_⟩, ?_⟩, ?_, ?_, rfl, ?_⟩
  · decide +kernel
  · decide +kernel
  · decide +kernel
  · decide +kernel
  · decide +kernel

/-- C86: an instance that no PRNT chunk mentions is dropped without a warning. -/
theorem C86_unlinked_fails :
    (decodeRoot LZ4.stored (fun _ => 0) (fun _ _ _ _ => default) true (linkFile [0] [-1])).result = .ok (.tree
      [(0, { className := str "Part", properties := [(str "Link", .reference (some 0))] }),
        (1, { className := str "Part", properties := [(str "Link", .reference none)] })] { instances := [0] }) ∧
    (decodeRoot LZ4.stored (fun _ => 0) (fun _ _ _ _ => default) true (linkFile [0] [-1])).warns = [] ∧
    (decodeRoot LZ4.stored (fun _ => 0) (fun _ _ _ _ => default) true (linkFile [0] [-1])).codecWarns = [] := by
  decide +kernel

end Props

import Verif.Rbxl.WriteCalls
import Verif.Props.Writers
import Verif.Spec.FrameOf
/-!
# C75: exactly what the offset of a failed binary encoding is
-/
namespace Props
open Go Rbxfile Spec Rbxl

/-- The chunks of a file and their frames. -/
theorem writeChunks_frames {lz : LZ4} {u : Bool} : ∀ (cs : List Chunk) {p : Bytes}, writeChunks lz u cs = .ok p →
    ∃ frames payloads, p = frames.flatten ∧ List.Forall₂ (FrameOf lz) frames payloads ∧
      payloads.map List.length = cs.map BinW.payloadSize ∧
      ∀ c q, (c, q) ∈ cs.zip payloads → c.body.payload = .ok q := by
  intro cs
  induction cs with
  | nil => intro p h; cases h; exact ⟨[], [], rfl, .nil, rfl, by simp⟩
  | cons c cs ih =>
    intro p h
    rw [writeChunks] at h
    obtain ⟨x, hx, h⟩ := Res.bind_eq_ok.1 h
    obtain ⟨y, hy, h⟩ := Res.bind_eq_ok.1 h
    cases h
    obtain ⟨frames, payloads, rfl, h1, h2, h3⟩ := ih hy
    unfold writeChunk at hx
    obtain ⟨payload, hp, hx⟩ := Res.bind_eq_ok.1 hx
    refine ⟨x :: frames, payload :: payloads, rfl, .cons ?_ h1, ?_, ?_⟩
    · unfold rawWrite at hx
      by_cases hc : (if u then false else c.compressed) = true
      · rw [if_pos hc] at hx
        obtain ⟨data, hd, hx⟩ := Res.bind_eq_ok.1 hx
        cases hx
        exact ⟨_, _, _, rfl, .inr ⟨hd, rfl⟩⟩
      · rw [if_neg hc] at hx
        cases hx
        exact ⟨_, _, _, rfl, .inl ⟨rfl, rfl⟩⟩
    · rw [List.map_cons, List.map_cons, h2]
      unfold BinW.payloadSize
      rw [hp]
    · intro c' q hm
      rw [List.zip_cons_cons, List.mem_cons] at hm
      rcases hm with hm | hm
      · cases hm; exact hp
      · exact h3 c' q hm

/-- The payload of a chunk that the encoder makes is not empty. -/
theorem encodedPayload_ne_nil {b : Body} (hb : (∃ c, b = .inst c) ∨ (∃ c, b = .parent c) ∨ (∃ c, b = .prop c) ∨ (∃ c, b = .metadata c) ∨
    (∃ c, b = .shared c) ∨ b = .end_ endTag) {q : Bytes} (h : b.payload = .ok q) : q ≠ [] := by
  have hle : ∀ (n : BitVec 32) (r : Bytes), le32 n ++ r ≠ [] := fun n r hx => by
    have := congrArg List.length hx
    rw [List.length_append] at this
    simp [le32] at this
  rcases hb with ⟨c, rfl⟩ | ⟨c, rfl⟩ | ⟨c, rfl⟩ | ⟨c, rfl⟩ | ⟨c, rfl⟩ | rfl
  · unfold Body.payload at h
    obtain ⟨refs, -, h⟩ := Res.bind_eq_ok.1 h
    cases h; exact hle _ _
  · unfold Body.payload at h
    simp only at h
    split at h
    · cases h
    · obtain ⟨x, -, h⟩ := Res.bind_eq_ok.1 h
      obtain ⟨y, -, h⟩ := Res.bind_eq_ok.1 h
      cases h; exact List.cons_ne_nil _ _
  · unfold Body.payload at h
    obtain ⟨raw, -, h⟩ := Res.bind_eq_ok.1 h
    cases h; exact hle _ _
  · unfold Body.payload at h; cases h; exact hle _ _
  · unfold Body.payload at h; cases h; exact hle _ _
  · unfold Body.payload at h; cases h; decide +kernel

section
variable {ρ : Type} [DecidableEq ρ]

theorem codecEncode_kinds {it : Iter} {srt : Sorter} {hash : Bytes → Bytes} {place : Bool} {h : Heap ρ} {root : Root ρ} {f : FormatModel}
    (hc : codecEncode it srt hash place h root = .ok f) : f.trailing = [] ∧ f.chunks ≠ [] ∧
    ∀ c ∈ f.chunks, (∃ x, c.body = .inst x) ∨ (∃ x, c.body = .parent x) ∨ (∃ x, c.body = .prop x) ∨ (∃ x, c.body = .metadata x) ∨
      (∃ x, c.body = .shared x) ∨ c.body = .end_ endTag := by
  unfold codecEncode at hc
  obtain ⟨L, -, hc⟩ := Res.bind_eq_ok.1 hc
  obtain ⟨⟨props, shared⟩, -, hc⟩ := Res.bind_eq_ok.1 hc
  obtain ⟨parent, -, hc⟩ := Res.bind_eq_ok.1 hc
  simp only [Res.pure_eq, Res.ok.injEq] at hc
  subst hc
  refine ⟨rfl, by simp, ?_⟩
  intro c hm
  simp only [List.mem_append, List.mem_map, List.mem_cons, List.not_mem_nil, or_false] at hm
  rcases hm with (((hm | hm) | ⟨x, -, rfl⟩) | ⟨x, -, rfl⟩) | rfl | rfl
  · split at hm
    · cases hm
    · rw [List.mem_singleton] at hm; subst hm; exact .inr (.inr (.inr (.inl ⟨_, rfl⟩)))
  · split at hm
    · cases hm
    · rw [List.mem_singleton] at hm; subst hm; exact .inr (.inr (.inr (.inr (.inl ⟨_, rfl⟩))))
  · exact .inl ⟨_, rfl⟩
  · exact .inr (.inr (.inl ⟨_, rfl⟩))
  · exact .inr (.inl ⟨_, rfl⟩)
  · exact .inr (.inr (.inr (.inr (.inr rfl))))
end

section
variable {σ ε ρ : Type} [DecidableEq ρ] (W : Writer σ ε) {empty : ε → Bool} {lz : LZ4} {u : Bool} {it : Iter} {srt : Sorter}
  {hash : Bytes → Bytes} {place : Bool} {h : Heap ρ} {root : Root ρ} {b : Bytes}

/-- C75: exactly what the offset is, whatever the writer does. The file consists of a header of 32 bytes and of chunks, and for the
header and for each chunk the writer is called five times. The offset is the number of bytes that have arrived, and in addition
the lengths of the (uncompressed) payloads of all chunks that have been begun; so it is right exactly if the writer fails in one
of the five calls for the header. -/
theorem C75_exact (he : encodeRoot lz u it srt hash place h root = .ok b) {s : σ} {calls : List (Call ε)} {off : Nat}
    {cause : Fail ε} (hr : encodeRootTo W empty lz u it srt hash place h root s = .ok (calls, some (off, cause))) :
    ∃ header frames payloads, b = header ++ frames.flatten ∧ header.length = 32 ∧ List.Forall₂ (FrameOf lz) frames payloads ∧
      off = (received calls).length + ((payloads.take ((calls.length - 1) / 5)).map List.length).sum ∧
      (off = (received calls).length ↔ calls.length ≤ 5) := by
  obtain ⟨f, hc, hf⟩ := encodeRoot_ok he
  unfold encodeRootTo at hr
  rw [hc] at hr
  have hr : encodeFileTo W empty lz u f s = .ok (calls, some (off, cause)) := hr
  have hoff := encodeFileTo_calls W empty hf hr
  obtain ⟨k1, k2, k3⟩ := codecEncode_kinds hc
  unfold encodeFile at hf
  obtain ⟨cs, hcs, hf⟩ := Res.bind_eq_ok.1 hf
  cases hf
  obtain ⟨frames, payloads, rfl, h1, h2, h3⟩ := writeChunks_frames f.chunks hcs
  have hh : (fileHeader f.version f.classCount f.instanceCount).length = 32 := by
    have h1 : (robloxSig ++ binaryMarker ++ binaryHeader).length = 14 := by decide +kernel
    unfold fileHeader
    simp only [List.length_append, h1]
    rfl
  refine ⟨fileHeader f.version f.classCount f.instanceCount, frames, payloads, by rw [k1, List.append_nil], hh, h1, ?_, ?_⟩
  · rw [List.map_take, h2, ← List.map_take]; exact hoff
  · constructor
    · intro hx
      by_contra hlt
      have hk : 1 ≤ (calls.length - 1) / 5 := by omega
      rw [hoff] at hx
      have hs : ((f.chunks.take ((calls.length - 1) / 5)).map BinW.payloadSize).sum = 0 := by omega
      match hch : f.chunks, k2 with
      | c :: rest, _ =>
        rw [hch] at hs h2 h3
        obtain ⟨j, hj⟩ : ∃ j, (calls.length - 1) / 5 = j + 1 := ⟨_, (Nat.sub_add_cancel hk).symm⟩
        rw [hj, List.take_succ_cons, List.map_cons, List.sum_cons] at hs
        match payloads, h2 with
        | q :: qs, h2 =>
          have hq := h3 c q (by rw [List.zip_cons_cons]; exact List.mem_cons_self)
          have hne := encodedPayload_ne_nil (k3 c (by rw [hch]; exact List.mem_cons_self)) hq
          have hps : BinW.payloadSize c = q.length := by unfold BinW.payloadSize; rw [hq]
          have := List.length_pos_iff.2 hne
          omega
    · intro hle
      rw [hoff, show (calls.length - 1) / 5 = 0 by omega, List.take_zero, List.map_nil, List.sum_nil]
      rfl
end

/-- How many calls were made, how many bytes have arrived, and the offset. -/
def callsB {ε ε' : Type} (x : Res (List (Call ε) × Option (Nat × ε'))) : Option (Nat × Nat × Option Nat) :=
  match x with
  | .ok (cs, e) => some (cs.length, (received cs).length, e.map Prod.fst)
  | _ => none

/-- A run that meets the hypotheses: the writer fails in the fifth call for the second chunk; the two payloads, of 14 and 30 bytes,
have been counted twice. -/
example : callsB (exTo 100 fun _ => false) = some (15, 100, some 144) := by decide +kernel

/-- A run that fails in the header: the offset is right. -/
example : callsB (exTo 20 fun _ => false) = some (4, 20, some 20) := by decide +kernel

end Props

import Verif.Rbxl.WriteTo
/-!
# The calls of the writer that the binary encoder makes

The header takes five calls, and so does each chunk. So the number of calls tells which chunks have been begun, and with it
which payloads have been counted.
-/
namespace Rbxl
open Go

variable {σ ε : Type} (W : Writer σ ε)

namespace BinW

/-- Several pieces one after the other. -/
def pieces (b : BinW σ ε) (ps : List Bytes) : BinW σ ε := ps.foldl (fun b p => b.bytes W p) b

theorem pieces_frozen {b : BinW σ ε} (h : b.err.isSome) (ps : List Bytes) : b.pieces W ps = b := by
  induction ps with
  | nil => rfl
  | cons p ps ih => unfold pieces; rw [List.foldl_cons, bytes_frozen W h]; exact ih

theorem bytes_calls {b : BinW σ ε} (h : b.err = none) (p : Bytes) :
    (b.bytes W p).sink.calls.length = b.sink.calls.length + 1 ∧
      (b.bytes W p).n + (Spec.received b.sink.calls).length = b.n + (Spec.received (b.bytes W p).sink.calls).length := by
  have hw := (W.write_ok b.sink.state p).1
  unfold bytes
  rw [if_neg (by rw [h]; simp)]
  simp only [Sink.call, BufWriter.received_snoc]
  refine ⟨by rw [List.length_append]; rfl, ?_⟩
  rw [List.length_append, List.length_take]
  omega

/-- The number of calls for `ps`: all, or until the first that fails. -/
theorem pieces_calls (ps : List Bytes) : ∀ {b : BinW σ ε}, b.err = none →
    (b.pieces W ps).n + (Spec.received b.sink.calls).length = b.n + (Spec.received (b.pieces W ps).sink.calls).length ∧
      ((b.pieces W ps).err = none → (b.pieces W ps).sink.calls.length = b.sink.calls.length + ps.length) ∧
      ((b.pieces W ps).err.isSome → b.sink.calls.length < (b.pieces W ps).sink.calls.length ∧
        (b.pieces W ps).sink.calls.length ≤ b.sink.calls.length + ps.length) := by
  induction ps with
  | nil => intro b h; exact ⟨rfl, fun _ => rfl, fun hx => (by rw [show (b.pieces W []).err = b.err from rfl, h] at hx; cases hx)⟩
  | cons p ps ih =>
    intro b h
    obtain ⟨c1, c2⟩ := bytes_calls W h p
    have hstep : b.pieces W (p :: ps) = (b.bytes W p).pieces W ps := rfl
    rw [hstep]
    by_cases he : (b.bytes W p).err.isSome
    · rw [pieces_frozen W he]
      refine ⟨c2, fun hx => (by rw [hx] at he; cases he), fun _ => ⟨by omega, by rw [List.length_cons]; omega⟩⟩
    · obtain ⟨i1, i2, i3⟩ := ih (b := b.bytes W p) (by simpa using he)
      refine ⟨by omega, fun hx => (by rw [i2 hx, List.length_cons]; omega), fun hx => ?_⟩
      obtain ⟨j1, j2⟩ := i3 hx
      exact ⟨by omega, by rw [List.length_cons]; omega⟩

/-- The pieces of a chunk. -/
theorem raw_pieces {lz : LZ4} {b b' : BinW σ ε} {c : Raw} (h : raw W lz b c = .ok b') (hi : ∀ e, b'.err ≠ some (.inner e)) :
    ∃ ps : List Bytes, ps.length = 5 ∧ b' = b.pieces W ps := by
  unfold raw at h
  simp only at h
  by_cases he : (b.bytes W (le32 c.sig)).err.isSome
  · rw [if_pos he] at h
    cases h
    refine ⟨[le32 c.sig, [], [], [], []], rfl, ?_⟩
    exact (pieces_frozen W he [[], [], [], []]).symm
  · rw [if_neg he] at h
    by_cases hc : c.compressed = true
    · rw [if_pos hc] at h
      cases hd : lz.enc c.payload with
      | panic => rw [hd] at h; cases h
      | err e =>
        rw [hd] at h
        cases h
        refine absurd ?_ (hi e)
        unfold add
        rw [if_neg he]
        rfl
      | ok data =>
        rw [hd] at h
        cases h
        exact ⟨[le32 c.sig, le32 (len32 data), le32 (len32 c.payload), le32 0, data], rfl, rfl⟩
    · rw [if_neg hc] at h
      cases h
      exact ⟨[le32 c.sig, le32 0, le32 (len32 c.payload), le32 0, c.payload], rfl, rfl⟩

theorem add_none {b : BinW σ ε} (h : b.err = none) (n : Nat) : b.add n none = ⟨b.sink, b.n + n, none⟩ := by
  unfold add
  rw [if_neg (by rw [h]; simp)]
  rfl

/-- The loop over the chunks: the payloads of the first `k` have been counted, and the number of calls tells `k`. -/
theorem chunks_calls {lz : LZ4} {u : Bool} : ∀ (cs : List Chunk) {b b' : BinW σ ε}, b.err = none → chunks W lz u cs b = .ok b' →
    (∀ e, b'.err ≠ some (.inner e)) → ∃ k, k ≤ cs.length ∧
      b'.n + (Spec.received b.sink.calls).length = b.n + (Spec.received b'.sink.calls).length + ((cs.take k).map payloadSize).sum ∧
      (b'.err = none → k = cs.length ∧ b'.sink.calls.length = b.sink.calls.length + 5 * k) ∧
      (b'.err.isSome → 1 ≤ k ∧ b.sink.calls.length + 5 * (k - 1) < b'.sink.calls.length ∧
        b'.sink.calls.length ≤ b.sink.calls.length + 5 * k) := by
  intro cs
  induction cs with
  | nil =>
    intro b b' h hr hi
    cases hr
    exact ⟨0, Nat.le_refl _, by simp only [List.take_nil, List.map_nil, List.sum_nil]; omega, fun _ => ⟨rfl, rfl⟩, fun hx => (by rw [h] at hx; cases hx)⟩
  | cons c cs ih =>
    intro b b' h hr hi
    rw [chunks] at hr
    unfold chunk at hr
    cases hp : c.body.payload with
    | panic => rw [hp] at hr; cases hr
    | err e =>
      rw [hp] at hr
      have he : (b.add 0 (some e)).err = some (.inner e) := by unfold add; rw [if_neg (by rw [h]; simp)]; rfl
      simp only [he, Option.isSome_some, if_true] at hr
      cases hr
      exact absurd he (hi e)
    | ok payload =>
      rw [hp] at hr
      simp only at hr
      have hps : payloadSize c = payload.length := by unfold payloadSize; rw [hp]
      rw [add_none h] at hr
      generalize (⟨c.body.sig, if u then false else c.compressed, payload⟩ : Raw) = r at hr
      cases hw : raw W lz (⟨b.sink, b.n + payload.length, none⟩ : BinW σ ε) r with
      | panic => rw [hw] at hr; cases hr
      | err e => rw [hw] at hr; cases hr
      | ok b1 =>
        rw [hw] at hr
        simp only at hr
        by_cases he : b1.err.isSome
        · rw [if_pos he] at hr
          cases hr
          obtain ⟨ps, hl, rfl⟩ := raw_pieces W hw hi
          obtain ⟨i1, i2, i3⟩ := pieces_calls W ps (b := (⟨b.sink, b.n + payload.length, none⟩ : BinW σ ε)) rfl
          obtain ⟨j1, j2⟩ := i3 he
          refine ⟨1, by simp, ?_, fun hx => (by rw [hx] at he; cases he), fun _ => ⟨Nat.le_refl _, ?_, ?_⟩⟩
          · simp only [List.take_succ_cons, List.take_zero, List.map_cons, List.map_nil, List.sum_cons, List.sum_nil, hps]
            simp only at i1
            omega
          · simpa using j1
          · rw [hl] at j2; simpa using j2
        · rw [if_neg he] at hr
          have hn1 : b1.err = none := by simpa using he
          obtain ⟨ps, hl, rfl⟩ := raw_pieces W hw (fun e => by rw [hn1]; nofun)
          obtain ⟨i1, i2, i3⟩ := pieces_calls W ps (b := (⟨b.sink, b.n + payload.length, none⟩ : BinW σ ε)) rfl
          have j2 := i2 hn1
          rw [hl] at j2
          obtain ⟨k, k1, k2, k3, k4⟩ := ih hn1 hr hi
          refine ⟨k + 1, by simpa using k1, ?_, fun hx => ?_, fun hx => ?_⟩
          · simp only [List.take_succ_cons, List.map_cons, List.sum_cons, hps]
            simp only at i1
            omega
          · obtain ⟨l1, l2⟩ := k3 hx
            simp only at j2
            exact ⟨by rw [l1]; rfl, by rw [l2, j2]; omega⟩
          · obtain ⟨l1, l2, l3⟩ := k4 hx
            simp only at j2
            exact ⟨by omega, by omega, by omega⟩

end BinW

/-- Exactly what a run with an error has counted: the bytes received, and the payloads of the chunks that it has begun. -/
theorem encodeFileTo_calls (empty : ε → Bool) {lz : LZ4} {u : Bool} {f : FormatModel} {out : Bytes} (hf : encodeFile lz u f = .ok out)
    {s : σ} {calls : List (Spec.Call ε)} {off : Nat} {cause : Fail ε}
    (hr : encodeFileTo W empty lz u f s = .ok (calls, some (off, cause))) :
    off = (Spec.received calls).length + ((f.chunks.take ((calls.length - 1) / 5)).map BinW.payloadSize).sum := by
  have hwt : ∀ (b : BinW σ ε), calls = b.sink.calls → encodeError empty b = some (off, cause) → b.err.isSome ∧ off = b.n := by
    intro b _ h2
    unfold encodeError at h2
    split at h2
    · cases h2
    · rename_i e h1
      split at h2
      · cases h2
      · cases h2; exact ⟨by rw [h1]; rfl, rfl⟩
    · rename_i e h1
      cases h2; exact ⟨by rw [h1]; rfl, rfl⟩
  unfold encodeFile at hf
  cases hcs : writeChunks lz u f.chunks with
  | err e => rw [hcs] at hf; cases hf
  | panic => rw [hcs] at hf; cases hf
  | ok cs =>
    unfold encodeFileTo at hr
    have h0 : BinW.Wt (⟨⟨s, []⟩, 0, none⟩ : BinW σ ε) [] 0 := ⟨⟨rfl, fun _ => ⟨rfl, by simp⟩, nofun, nofun⟩, nofun⟩
    have h1 := BinW.header_wt W h0 f.version f.classCount f.instanceCount
    have hp : BinW.header W f.version f.classCount f.instanceCount (⟨⟨s, []⟩, 0, none⟩ : BinW σ ε) =
      BinW.pieces W (⟨⟨s, []⟩, 0, none⟩ : BinW σ ε) [robloxSig ++ binaryMarker ++ binaryHeader, le16 f.version, le32 f.classCount,
        le32 f.instanceCount, le64 0] := rfl
    obtain ⟨i1, i2, i3⟩ := BinW.pieces_calls W [robloxSig ++ binaryMarker ++ binaryHeader, le16 f.version, le32 f.classCount,
        le32 f.instanceCount, le64 0] (b := (⟨⟨s, []⟩, 0, none⟩ : BinW σ ε)) rfl
    rw [← hp] at i1 i2 i3
    simp only at hr
    have hr0 : (Spec.received ([] : List (Spec.Call ε))).length = 0 := rfl
    simp only [hr0, List.length_cons, List.length_nil, Nat.zero_add, Nat.add_zero] at i1 i2 i3
    generalize BinW.header W f.version f.classCount f.instanceCount (⟨⟨s, []⟩, 0, none⟩ : BinW σ ε) = b1 at h1 i1 i2 i3 hr
    by_cases he : b1.err.isSome
    · rw [if_pos he] at hr
      simp only [Res.ok.injEq, Prod.mk.injEq] at hr
      obtain ⟨rfl, h2⟩ := hr
      obtain ⟨-, rfl⟩ := hwt b1 rfl h2
      have := (i3 he).2
      rw [show (b1.sink.calls.length - 1) / 5 = 0 by omega, List.take_zero, List.map_nil, List.sum_nil]
      omega
    · rw [if_neg he] at hr
      have hn1 : b1.err = none := by simpa using he
      have hl := i2 hn1
      obtain ⟨b2, k', e2, -, w2, -, -⟩ := BinW.chunks_wt W f.chunks h1 hn1 hcs
      rw [e2] at hr
      simp only at hr
      obtain ⟨k, k1, k2, k3, k4⟩ := BinW.chunks_calls W f.chunks hn1 e2 w2.noInner
      by_cases he2 : b2.err.isSome
      · rw [if_pos he2] at hr
        simp only [Res.ok.injEq, Prod.mk.injEq] at hr
        obtain ⟨rfl, h2⟩ := hr
        obtain ⟨-, rfl⟩ := hwt b2 rfl h2
        obtain ⟨l1, l2, l3⟩ := k4 he2
        rw [show (b2.sink.calls.length - 1) / 5 = k by omega]
        omega
      · rw [if_neg he2] at hr
        have hn2 : b2.err = none := by simpa using he2
        obtain ⟨l1, l2⟩ := k3 hn2
        obtain ⟨m1, m2⟩ := BinW.bytes_calls W hn2 f.trailing
        simp only [Res.ok.injEq, Prod.mk.injEq] at hr
        obtain ⟨rfl, h2⟩ := hr
        obtain ⟨-, rfl⟩ := hwt _ rfl h2
        rw [show ((b2.bytes W f.trailing).sink.calls.length - 1) / 5 = k + 1 by omega]
        rw [List.take_of_length_le (by omega)]
        rw [l1, List.take_length] at k2
        omega

end Rbxl

import Verif.Go.Writer
import Verif.Rbxl.CodecEncode
/-!
# Writing the binary format to a writer that may fail (rbxl/encoder.go, rbxl/model.go)

`parse.BinaryWriter` (github.com/anaminus/parse) keeps the number of bytes written and the first error; once there is
an error it does nothing. Each of `Bytes` and `Number` is one call of `Write`, numbers being little-endian.
-/
namespace Rbxl
open Go

/-- The cause of a failure of the encoder: an error of its own or an error of the writer. -/
inductive Fail (ε : Type) where
  | inner (e : Err)
  | writer (e : ε)
  deriving DecidableEq

/-- `parse.BinaryWriter`: the writer, `N()` and `Err()`. -/
structure BinW (σ ε : Type) where
  sink : Sink σ ε
  n : Nat := 0
  err : Option (Fail ε) := none

variable {σ ε : Type} (W : Writer σ ε)

namespace BinW

/-- `BinaryWriter.Bytes` and `BinaryWriter.Number` of package parse. -/
def bytes (b : BinW σ ε) (p : Bytes) : BinW σ ε :=
  if b.err.isSome then b
  else
    let r := b.sink.call W.write p
    ⟨r.1, b.n + r.2.1, (if r.2.1 < p.length && r.2.2.isNone then some W.shortWrite else r.2.2).map .writer⟩

/-- `BinaryWriter.Add` of package parse. -/
def add (b : BinW σ ε) (n : Nat) (err : Option Err) : BinW σ ε :=
  if b.err.isSome then b else ⟨b.sink, b.n + n, err.map .inner⟩

/-- `rawChunk.WriteTo` (rbxl/model.go:206-266). The early returns are not needed, as nothing happens after an error;
except that `lz4.Encode` is not called. -/
def raw (lz : LZ4) (b : BinW σ ε) (c : Raw) : Res (BinW σ ε) :=
  let b := b.bytes W (le32 c.sig)
  if b.err.isSome then .ok b
  else if c.compressed then
    match lz.enc c.payload with
    | .panic => .panic
    | .err e => .ok (b.add 0 (some e))
    | .ok data => .ok ((((b.bytes W (le32 (len32 data))).bytes W (le32 (len32 c.payload))).bytes W (le32 0)).bytes W data)
  else .ok ((((b.bytes W (le32 0)).bytes W (le32 (len32 c.payload))).bytes W (le32 0)).bytes W c.payload)

/-- One chunk (rbxl/encoder.go:94-109). Of `chunk.WriteTo(buf)` that fails, the number of bytes is not modelled. -/
def chunk (lz : LZ4) (uncompressed : Bool) (b : BinW σ ε) (c : Chunk) : Res (BinW σ ε) :=
  match c.body.payload with
  | .panic => .panic
  | .err e => .ok (b.add 0 (some e))
  | .ok payload => raw W lz (b.add payload.length none) ⟨c.body.sig, if uncompressed then false else c.compressed, payload⟩

/-- The loop over the chunks (rbxl/encoder.go:76-110). -/
def chunks (lz : LZ4) (uncompressed : Bool) : List Chunk → BinW σ ε → Res (BinW σ ε)
  | [], b => .ok b
  | c :: cs, b =>
    match chunk W lz uncompressed b c with
    | .panic => .panic
    | .err e => .err e
    | .ok b => if b.err.isSome then .ok b else chunks lz uncompressed cs b

/-- The header (rbxl/encoder.go:55-74). -/
def header (version : BitVec 16) (classCount instanceCount : BitVec 32) (b : BinW σ ε) : BinW σ ε :=
  ((((b.bytes W (robloxSig ++ binaryMarker ++ binaryHeader)).bytes W (le16 version)).bytes W (le32 classCount)).bytes W
    (le32 instanceCount)).bytes W (le64 0)

end BinW

/-- `encodeError` (rbxl/encoder.go:38-48): the offset and the cause of the `DataError`. `empty` tells whether an error of
the writer is an `errors.Errors` with no elements. -/
def encodeError (empty : ε → Bool) (b : BinW σ ε) : Option (Nat × Fail ε) :=
  match b.err with
  | none => none
  | some (.writer e) => if empty e then none else some (b.n, .writer e)
  | some (.inner e) => some (b.n, .inner e)

/-- `Encoder.encode` (rbxl/encoder.go:50-115): the calls the writer has received, and the error. -/
def encodeFileTo (empty : ε → Bool) (lz : LZ4) (uncompressed : Bool) (f : FormatModel) (s : σ) :
    Res (List (Spec.Call ε) × Option (Nat × Fail ε)) :=
  let b := BinW.header W f.version f.classCount f.instanceCount ⟨⟨s, []⟩, 0, none⟩
  if b.err.isSome then .ok (b.sink.calls, encodeError empty b)
  else
    match BinW.chunks W lz uncompressed f.chunks b with
    | .panic => .panic
    | .err e => .err e
    | .ok b =>
      if b.err.isSome then .ok (b.sink.calls, encodeError empty b)
      else
        let b := b.bytes W f.trailing
        .ok (b.sink.calls, encodeError empty b)

/-- `Encoder.Encode` (rbxl/encoder.go:23-36): the calls the writer has received, and the `DataError`. A `CodecError` is an
`err`. -/
def encodeRootTo {ρ : Type} [DecidableEq ρ] (empty : ε → Bool) (lz : LZ4) (uncompressed : Bool) (it : Iter) (srt : Sorter)
    (hash : Bytes → Bytes) (place : Bool) (h : Rbxfile.Heap ρ) (root : Rbxfile.Root ρ) (s : σ) :
    Res (List (Spec.Call ε) × Option (Nat × Fail ε)) := do
  let f ← codecEncode it srt hash place h root
  encodeFileTo W empty lz uncompressed f s

/-! ### What has been written -/

namespace BinW

/-- The state of a writer to which `out` has been written, `x` bytes having been counted in addition. -/
structure Wr (b : BinW σ ε) (out : Bytes) (x : Nat) : Prop where
  count : b.n = (Spec.received b.sink.calls).length + x
  ok : b.err = none → Spec.received b.sink.calls = out ∧ ∀ c ∈ b.sink.calls, c.err = none
  writer : ∀ e, b.err = some (.writer e) → Spec.Delivered out b.sink.calls (some e)
  inner : ∀ e, b.err = some (.inner e) → Spec.received b.sink.calls = out ∧ ∀ c ∈ b.sink.calls, c.err = none

theorem bytes_frozen {b : BinW σ ε} (h : b.err.isSome) (p : Bytes) : b.bytes W p = b := by unfold bytes; rw [if_pos h]

theorem Wr.more {b : BinW σ ε} {out : Bytes} {x : Nat} {e : ε} (h : b.Wr out x) (he : b.err = some (.writer e)) (q : Bytes) :
    b.Wr (out ++ q) x := by
  refine ⟨h.count, fun hn => (by rw [hn] at he; cases he), ?_, fun e' he' => (by rw [he'] at he; cases he)⟩
  intro e' he'
  obtain ⟨h1, h2⟩ := h.writer e' he'
  exact ⟨h1.trans (List.prefix_append _ _), h2⟩

theorem bytes_ok {b : BinW σ ε} {out : Bytes} {x : Nat} (h : b.Wr out x) (hn : b.err = none) (p : Bytes) :
    (b.bytes W p).Wr (out ++ p) x ∧ ∀ e, (b.bytes W p).err ≠ some (.inner e) := by
  obtain ⟨h1, h2⟩ := h.ok hn
  have hw : (b.sink.call W.write p).2.1 ≤ p.length ∧ ((b.sink.call W.write p).2.1 < p.length → (b.sink.call W.write p).2.2.isSome) :=
    W.write_ok b.sink.state p
  have hc : (b.sink.call W.write p).1.calls = b.sink.calls ++ [⟨p, (b.sink.call W.write p).2.1, (b.sink.call W.write p).2.2⟩] := rfl
  unfold bytes
  rw [if_neg (by rw [hn]; simp)]
  simp only
  generalize b.sink.call W.write p = r at hw hc
  obtain ⟨⟨s', calls⟩, n, er⟩ := r
  simp only at hc
  subst hc
  obtain ⟨hle, hlt⟩ := hw
  simp only at hle hlt ⊢
  cases er with
  | none =>
    have hn' : n = p.length := by
      have : ¬ n < p.length := fun hx => by have := hlt hx; cases this
      omega
    subst hn'
    have hcalls : ∀ c ∈ b.sink.calls ++ [(⟨p, p.length, none⟩ : Spec.Call ε)], c.err = none := by
      intro c hc
      rcases List.mem_append.1 hc with hc | hc
      · exact h2 c hc
      · rw [List.mem_singleton.1 hc]
    have hrec : Spec.received (b.sink.calls ++ [(⟨p, p.length, none⟩ : Spec.Call ε)]) = out ++ p := by
      rw [BufWriter.received_snoc, h1, List.take_length]
    simp only [Nat.lt_irrefl, decide_false, Bool.false_and, Bool.false_eq_true, if_false, Option.map_none]
    refine ⟨⟨?_, fun _ => ⟨hrec, hcalls⟩, nofun, nofun⟩, nofun⟩
    simp only
    rw [hrec, h.count, h1, List.length_append]; omega
  | some e =>
    simp only [Option.isNone_some, Bool.and_false, Bool.false_eq_true, if_false, Option.map_some]
    have hrec : Spec.received (b.sink.calls ++ [(⟨p, n, some e⟩ : Spec.Call ε)]) = out ++ p.take n := by
      rw [BufWriter.received_snoc, h1]
    refine ⟨⟨?_, nofun, ?_, nofun⟩, nofun⟩
    · simp only
      rw [hrec, h.count, h1, List.length_append, List.length_take]; omega
    · rintro e' he'
      cases he'
      refine ⟨?_, _, _, rfl, rfl, h2⟩
      simp only
      rw [hrec]
      exact List.prefix_append_right_inj _ |>.2 (List.take_prefix _ _)

/-- As `Wr`, and there is no error but those of the writer. -/
structure Wt (b : BinW σ ε) (out : Bytes) (x : Nat) : Prop where
  wr : b.Wr out x
  noInner : ∀ e, b.err ≠ some (.inner e)

theorem Wt.cases {b : BinW σ ε} {out : Bytes} {x : Nat} (h : b.Wt out x) : b.err = none ∨ ∃ e, b.err = some (.writer e) := by
  cases hb : b.err with
  | none => exact .inl rfl
  | some f =>
    cases f with
    | inner e => exact absurd hb (h.noInner e)
    | writer e => exact .inr ⟨e, rfl⟩

theorem Wt.more {b : BinW σ ε} {out : Bytes} {x : Nat} (h : b.Wt out x) (he : b.err.isSome) (q : Bytes) : b.Wt (out ++ q) x := by
  rcases h.cases with h1 | ⟨e, h1⟩
  · rw [h1] at he; cases he
  · exact ⟨h.wr.more h1 q, h.noInner⟩

theorem bytes_wt {b : BinW σ ε} {out : Bytes} {x : Nat} (h : b.Wt out x) (p : Bytes) : (b.bytes W p).Wt (out ++ p) x := by
  by_cases he : b.err.isSome
  · rw [bytes_frozen W he]
    exact h.more he p
  · have := bytes_ok W h.wr (by simpa using he) p
    exact ⟨this.1, this.2⟩

theorem header_wt {b : BinW σ ε} {x : Nat} (h : b.Wt [] x) (v : BitVec 16) (c i : BitVec 32) :
    (header W v c i b).Wt (fileHeader v c i) x := by
  have := bytes_wt W (bytes_wt W (bytes_wt W (bytes_wt W (bytes_wt W h (robloxSig ++ binaryMarker ++ binaryHeader)) (le16 v)) (le32 c)) (le32 i)) (le64 0)
  exact this

theorem add_wt {b : BinW σ ε} {out : Bytes} {x : Nat} (h : b.Wt out x) (hn : b.err = none) (n : Nat) :
    (b.add n none).Wt out (x + n) ∧ (b.add n none).err = none ∧ (b.add n none).sink = b.sink := by
  unfold add
  rw [if_neg (by rw [hn]; simp)]
  obtain ⟨h1, h2⟩ := h.wr.ok hn
  refine ⟨⟨⟨?_, fun _ => ⟨h1, h2⟩, nofun, nofun⟩, nofun⟩, rfl, rfl⟩
  simp only
  rw [h.wr.count]; omega

theorem raw_wt {lz : LZ4} {b : BinW σ ε} {out : Bytes} {x : Nat} (h : b.Wt out x) {c : Raw} {p : Bytes}
    (hp : rawWrite lz c = .ok p) : ∃ b', raw W lz b c = .ok b' ∧ b'.Wt (out ++ p) x := by
  unfold rawWrite at hp
  unfold raw
  have h1 := bytes_wt W h (le32 c.sig)
  simp only
  generalize b.bytes W (le32 c.sig) = b1 at h1
  by_cases he : b1.err.isSome
  · rw [if_pos he]
    have : ∃ q, p = le32 c.sig ++ q := by
      by_cases hc : c.compressed = true
      · rw [if_pos hc] at hp
        cases hd : lz.enc c.payload with
        | ok data =>
          rw [hd] at hp
          simp only [Res.ok_bind, Res.pure_eq, Res.ok.injEq] at hp
          exact ⟨_, hp.symm⟩
        | err e => rw [hd] at hp; cases hp
        | panic => rw [hd] at hp; cases hp
      · rw [if_neg hc] at hp
        simp only [Res.pure_eq, Res.ok.injEq] at hp
        exact ⟨_, hp.symm⟩
    obtain ⟨q, rfl⟩ := this
    refine ⟨b1, rfl, ?_⟩
    rw [← List.append_assoc]
    exact h1.more he q
  · rw [if_neg he]
    by_cases hc : c.compressed = true
    · rw [if_pos hc] at hp ⊢
      cases hd : lz.enc c.payload with
      | err e => rw [hd] at hp; cases hp
      | panic => rw [hd] at hp; cases hp
      | ok data =>
        rw [hd] at hp
        simp only [Res.ok_bind, Res.pure_eq, Res.ok.injEq] at hp
        subst hp
        refine ⟨_, rfl, ?_⟩
        have := bytes_wt W (bytes_wt W (bytes_wt W (bytes_wt W h1 (le32 (len32 data))) (le32 (len32 c.payload))) (le32 0)) data
        simpa only [List.append_assoc] using this
    · rw [if_neg hc] at hp ⊢
      simp only [Res.pure_eq, Res.ok.injEq] at hp
      subst hp
      refine ⟨_, rfl, ?_⟩
      have := bytes_wt W (bytes_wt W (bytes_wt W (bytes_wt W h1 (le32 0)) (le32 (len32 c.payload))) (le32 0)) c.payload
      simpa only [List.append_assoc] using this

theorem bytes_grows (b : BinW σ ε) (p : Bytes) : Spec.received b.sink.calls <+: Spec.received (b.bytes W p).sink.calls := by
  unfold bytes
  by_cases he : b.err.isSome
  · rw [if_pos he]; exact List.prefix_refl _
  · rw [if_neg he]
    simp only [Sink.call]
    rw [BufWriter.received_snoc]
    exact List.prefix_append _ _

theorem raw_grows {lz : LZ4} {b b' : BinW σ ε} {c : Raw} (h : raw W lz b c = .ok b') :
    Spec.received b.sink.calls <+: Spec.received b'.sink.calls := by
  unfold raw at h
  simp only at h
  have h1 := bytes_grows W b (le32 c.sig)
  generalize b.bytes W (le32 c.sig) = b1 at h1 h
  refine h1.trans ?_
  by_cases he : b1.err.isSome
  · rw [if_pos he] at h
    cases h; exact List.prefix_refl _
  · rw [if_neg he] at h
    by_cases hc : c.compressed = true
    · rw [if_pos hc] at h
      cases hd : lz.enc c.payload with
      | panic => rw [hd] at h; cases h
      | err e =>
        rw [hd] at h
        cases h
        unfold add
        rw [if_neg he]
        exact List.prefix_refl _
      | ok data =>
        rw [hd] at h
        cases h
        exact (bytes_grows W _ _).trans ((bytes_grows W _ _).trans ((bytes_grows W _ _).trans (bytes_grows W _ _)))
    · rw [if_neg hc] at h
      cases h
      exact (bytes_grows W _ _).trans ((bytes_grows W _ _).trans ((bytes_grows W _ _).trans (bytes_grows W _ _)))

/-- The length of the payload of a chunk. -/
def payloadSize (c : Chunk) : Nat :=
  match c.body.payload with
  | .ok p => p.length
  | _ => 0

/-- The loop over chunks that can be encoded: the payloads of the first `k` chunks have been counted, and the chunks
before the `k`-th have been received. -/
theorem chunks_wt {lz : LZ4} {u : Bool} : ∀ (cs : List Chunk) {b : BinW σ ε} {out p : Bytes} {x : Nat}, b.Wt out x → b.err = none →
    writeChunks lz u cs = .ok p → ∃ b' k, chunks W lz u cs b = .ok b' ∧ k ≤ cs.length ∧
      b'.Wt (out ++ p) (x + ((cs.take k).map payloadSize).sum) ∧ (b'.err = none → k = cs.length) ∧
      out <+: Spec.received b'.sink.calls := by
  intro cs
  induction cs with
  | nil =>
    intro b out p x h hn hp
    rw [writeChunks, Res.ok.injEq] at hp
    subst hp
    refine ⟨b, 0, rfl, Nat.le_refl _, by simpa using h, fun _ => rfl, ?_⟩
    rw [(h.wr.ok hn).1]
    exact List.prefix_refl _
  | cons c cs ih =>
    intro b out p x h hn hp
    rw [writeChunks] at hp
    cases hc : writeChunk lz u c with
    | err e => rw [hc] at hp; cases hp
    | panic => rw [hc] at hp; cases hp
    | ok y =>
      cases hcs : writeChunks lz u cs with
      | err e => rw [hc, hcs] at hp; cases hp
      | panic => rw [hc, hcs] at hp; cases hp
      | ok z =>
        rw [hc, hcs] at hp
        simp only [Res.ok_bind, Res.pure_eq, Res.ok.injEq] at hp
        subst hp
        unfold writeChunk at hc
        cases hpl : c.body.payload with
        | err e => rw [hpl] at hc; cases hc
        | panic => rw [hpl] at hc; cases hc
        | ok payload =>
          rw [hpl, Res.ok_bind] at hc
          obtain ⟨a1, a2, a3⟩ := add_wt h hn payload.length
          obtain ⟨b1, e1, w1⟩ := raw_wt W a1 hc
          have hpre1 : out <+: Spec.received b1.sink.calls := by
            have := raw_grows W e1
            rw [(a1.wr.ok a2).1] at this
            exact this
          rw [chunks]
          unfold chunk
          rw [hpl]
          simp only
          rw [e1]
          simp only
          have hps : payloadSize c = payload.length := by unfold payloadSize; rw [hpl]
          by_cases he : b1.err.isSome
          · rw [if_pos he]
            refine ⟨b1, 1, rfl, by simp, ?_, fun hx => (by rw [hx] at he; cases he), hpre1⟩
            have := w1.more he z
            simpa only [List.append_assoc, List.take_succ_cons, List.take_zero, List.map_cons, List.map_nil, List.sum_cons,
              List.sum_nil, hps, Nat.add_zero] using this
          · rw [if_neg he]
            obtain ⟨b', k, e2, hk, w2, hfin, hpre⟩ := ih w1 (by simpa using he) hcs
            refine ⟨b', k + 1, e2, by simpa using hk, ?_, fun hx => (by rw [hfin hx]; simp), ?_⟩
            · have : x + (((c :: cs).take (k + 1)).map payloadSize).sum = x + payload.length + ((cs.take k).map payloadSize).sum := by
                simp only [List.take_succ_cons, List.map_cons, List.sum_cons, hps]; omega
              rw [this]
              simpa only [List.append_assoc] using w2
            · exact (List.prefix_append _ _).trans hpre

/-- The encoder has failed: with its own error `e`, all calls having succeeded, or with an error of the writer. -/
def Failed (b : BinW σ ε) (e : Err) : Prop :=
  (b.err = some (.inner e) ∧ ∀ c ∈ b.sink.calls, c.err = none) ∨
  ∃ w, b.err = some (.writer w) ∧ ∃ out, Spec.Delivered out b.sink.calls (some w)

theorem Wt.failed {b : BinW σ ε} {out : Bytes} {x : Nat} (h : b.Wt out x) (he : b.err.isSome) (e : Err) : b.Failed e := by
  rcases h.cases with h1 | ⟨w, h1⟩
  · rw [h1] at he; cases he
  · exact .inr ⟨w, h1, out, h.wr.writer w h1⟩

theorem Wt.add_failed {b : BinW σ ε} {out : Bytes} {x : Nat} (h : b.Wt out x) (hn : b.err = none) (e : Err) : (b.add 0 (some e)).Failed e := by
  unfold add
  rw [if_neg (by rw [hn]; simp)]
  exact .inl ⟨rfl, (h.wr.ok hn).2⟩

/-- The loop over chunks one of which cannot be encoded. -/
theorem chunks_err {lz : LZ4} {u : Bool} {e : Err} : ∀ (cs : List Chunk) {b : BinW σ ε} {out : Bytes} {x : Nat}, b.Wt out x → b.err = none →
    writeChunks lz u cs = .err e → ∃ b', chunks W lz u cs b = .ok b' ∧ b'.Failed e := by
  intro cs
  induction cs with
  | nil => intro b out x _ _ hp; cases hp
  | cons c cs ih =>
    intro b out x h hn hp
    rw [writeChunks] at hp
    rw [chunks]
    unfold chunk
    cases hpl : c.body.payload with
    | panic => unfold writeChunk at hp; rw [hpl] at hp; cases hp
    | err e' =>
      unfold writeChunk at hp; rw [hpl] at hp; cases hp
      simp only
      have hf := h.add_failed hn e
      have : (b.add 0 (some e)).err.isSome := by rcases hf with ⟨h1, -⟩ | ⟨w, h1, -⟩ <;> rw [h1] <;> rfl
      rw [if_pos this]
      exact ⟨_, rfl, hf⟩
    | ok payload =>
      simp only
      obtain ⟨a1, a2, a3⟩ := add_wt h hn payload.length
      generalize hraw : (⟨c.body.sig, if u then false else c.compressed, payload⟩ : Raw) = r
      have hwc : writeChunk lz u c = rawWrite lz r := by unfold writeChunk; rw [hpl, Res.ok_bind, hraw]
      rw [hwc] at hp
      cases hr : rawWrite lz r with
      | panic => rw [hr] at hp; cases hp
      | ok y =>
        rw [hr] at hp
        obtain ⟨b1, e1, w1⟩ := raw_wt W a1 hr
        rw [e1]
        simp only
        by_cases he : b1.err.isSome
        · rw [if_pos he]
          exact ⟨_, rfl, w1.failed he e⟩
        · rw [if_neg he]
          refine ih w1 (by simpa using he) ?_
          cases hcs : writeChunks lz u cs with
          | err e' => rw [hcs] at hp; cases hp; rfl
          | ok z => rw [hcs] at hp; cases hp
          | panic => rw [hcs] at hp; cases hp
      | err e' =>
        rw [hr] at hp
        cases hp
        have key : ∃ b', raw W lz (b.add payload.length none) r = .ok b' ∧ b'.Failed e := by
          unfold rawWrite at hr
          by_cases hc : r.compressed = true
          · rw [if_pos hc] at hr
            unfold raw
            have h1 := bytes_wt W a1 (le32 r.sig)
            simp only
            generalize (b.add payload.length none).bytes W (le32 r.sig) = b1 at h1
            by_cases he : b1.err.isSome
            · rw [if_pos he]
              exact ⟨_, rfl, h1.failed he e⟩
            · rw [if_neg he, if_pos hc]
              cases hd : lz.enc r.payload with
              | ok data => rw [hd] at hr; cases hr
              | panic => rw [hd] at hr; cases hr
              | err e' =>
                rw [hd] at hr
                cases hr
                exact ⟨_, rfl, h1.add_failed (by simpa using he) e⟩
          · rw [if_neg hc] at hr; cases hr
        obtain ⟨b', e1, hf⟩ := key
        rw [e1]
        simp only
        have : b'.err.isSome := by rcases hf with ⟨h1, -⟩ | ⟨w, h1, -⟩ <;> rw [h1] <;> rfl
        rw [if_pos this]
        exact ⟨_, rfl, hf⟩

end BinW

/-- What the runs of the encoder do with a file that can be encoded. -/
theorem encodeFileTo_run (empty : ε → Bool) {lz : LZ4} {u : Bool} {f : FormatModel} {out : Bytes} (hf : encodeFile lz u f = .ok out) (s : σ) :
    ∃ (b : BinW σ ε) (k : Nat), encodeFileTo W empty lz u f s = .ok (b.sink.calls, encodeError empty b) ∧ k ≤ f.chunks.length ∧
      b.Wt out ((f.chunks.take k).map BinW.payloadSize).sum ∧
      (k = 0 ∨ fileHeader f.version f.classCount f.instanceCount <+: Spec.received b.sink.calls) := by
  unfold encodeFile at hf
  cases hcs : writeChunks lz u f.chunks with
  | err e => rw [hcs] at hf; cases hf
  | panic => rw [hcs] at hf; cases hf
  | ok cs =>
    rw [hcs] at hf
    simp only [Res.ok_bind, Res.pure_eq, Res.ok.injEq] at hf
    subst hf
    unfold encodeFileTo
    have h0 : BinW.Wt (⟨⟨s, []⟩, 0, none⟩ : BinW σ ε) [] 0 := ⟨⟨rfl, fun _ => ⟨rfl, by simp⟩, nofun, nofun⟩, nofun⟩
    have h1 := BinW.header_wt W h0 f.version f.classCount f.instanceCount
    simp only
    generalize BinW.header W f.version f.classCount f.instanceCount (⟨⟨s, []⟩, 0, none⟩ : BinW σ ε) = b1 at h1
    by_cases he : b1.err.isSome
    · rw [if_pos he]
      refine ⟨b1, 0, rfl, Nat.zero_le _, ?_, .inl rfl⟩
      have := h1.more he (cs ++ f.trailing)
      simpa only [List.append_assoc, List.take_zero, List.map_nil, List.sum_nil] using this
    · rw [if_neg he]
      obtain ⟨b2, k, e2, hk, w2, hfin, hpre⟩ := BinW.chunks_wt W f.chunks h1 (by simpa using he) hcs
      rw [Nat.zero_add] at w2
      rw [e2]
      simp only
      by_cases he2 : b2.err.isSome
      · rw [if_pos he2]
        exact ⟨b2, k, rfl, hk, w2.more he2 _, .inr hpre⟩
      · rw [if_neg he2]
        refine ⟨b2.bytes W f.trailing, k, rfl, hk, BinW.bytes_wt W w2 _, .inr ?_⟩
        refine hpre.trans ?_
        unfold BinW.bytes
        rw [if_neg he2]
        simp only [Sink.call]
        rw [BufWriter.received_snoc]
        exact List.prefix_append _ _

/-- What the runs of the encoder do with a file that cannot be encoded. -/
theorem encodeFileTo_err (empty : ε → Bool) {lz : LZ4} {u : Bool} {f : FormatModel} {e : Err} (hf : encodeFile lz u f = .err e) (s : σ) :
    ∃ b : BinW σ ε, encodeFileTo W empty lz u f s = .ok (b.sink.calls, encodeError empty b) ∧ b.Failed e := by
  unfold encodeFile at hf
  cases hcs : writeChunks lz u f.chunks with
  | ok cs => rw [hcs] at hf; cases hf
  | panic => rw [hcs] at hf; cases hf
  | err e' =>
    rw [hcs] at hf
    cases hf
    unfold encodeFileTo
    have h0 : BinW.Wt (⟨⟨s, []⟩, 0, none⟩ : BinW σ ε) [] 0 := ⟨⟨rfl, fun _ => ⟨rfl, by simp⟩, nofun, nofun⟩, nofun⟩
    have h1 := BinW.header_wt W h0 f.version f.classCount f.instanceCount
    simp only
    generalize BinW.header W f.version f.classCount f.instanceCount (⟨⟨s, []⟩, 0, none⟩ : BinW σ ε) = b1 at h1
    by_cases he : b1.err.isSome
    · rw [if_pos he]
      exact ⟨b1, rfl, h1.failed he e⟩
    · rw [if_neg he]
      obtain ⟨b2, e2, hf2⟩ := BinW.chunks_err W f.chunks h1 (by simpa using he) hcs
      rw [e2]
      simp only
      have : b2.err.isSome := by rcases hf2 with ⟨h1, -⟩ | ⟨w, h1, -⟩ <;> rw [h1] <;> rfl
      rw [if_pos this]
      exact ⟨b2, rfl, hf2⟩

/-! ### The calls are those of the writer -/

namespace BinW

/-- The calls recorded are calls of the writer. -/
def Honest (s : σ) (b : BinW σ ε) : Prop := Made W s b.sink.calls b.sink.state

variable {W} {s : σ}

theorem Honest.bytes {b : BinW σ ε} (h : Honest W s b) (p : Bytes) : Honest W s (b.bytes W p) := by
  unfold BinW.bytes
  split
  · exact h
  · exact Sink.call_made h _

theorem Honest.add {b : BinW σ ε} (h : Honest W s b) (n : Nat) (e : Option Err) : Honest W s (b.add n e) := by
  unfold BinW.add
  split <;> exact h

theorem Honest.raw {lz : LZ4} {b b' : BinW σ ε} (h : Honest W s b) {c : Raw} (hr : BinW.raw W lz b c = .ok b') : Honest W s b' := by
  unfold BinW.raw at hr
  have h1 := h.bytes (le32 c.sig)
  simp only at hr
  generalize b.bytes W (le32 c.sig) = b1 at h1 hr
  by_cases he : b1.err.isSome
  · rw [if_pos he] at hr; cases hr; exact h1
  · rw [if_neg he] at hr
    by_cases hc : c.compressed = true
    · rw [if_pos hc] at hr
      cases hd : lz.enc c.payload with
      | panic => rw [hd] at hr; cases hr
      | err e => rw [hd] at hr; cases hr; exact h1.add _ _
      | ok data => rw [hd] at hr; cases hr; exact (((h1.bytes _).bytes _).bytes _).bytes _
    · rw [if_neg hc] at hr; cases hr; exact (((h1.bytes _).bytes _).bytes _).bytes _

theorem Honest.chunks {lz : LZ4} {u : Bool} : ∀ (cs : List Chunk) {b b' : BinW σ ε}, Honest W s b → BinW.chunks W lz u cs b = .ok b' →
    Honest W s b' := by
  intro cs
  induction cs with
  | nil => intro b b' h hr; cases hr; exact h
  | cons c cs ih =>
    intro b b' h hr
    rw [BinW.chunks] at hr
    cases hc : BinW.chunk W lz u b c with
    | panic => rw [hc] at hr; cases hr
    | err e => rw [hc] at hr; cases hr
    | ok b1 =>
      rw [hc] at hr
      have h1 : Honest W s b1 := by
        unfold BinW.chunk at hc
        cases hp : c.body.payload with
        | panic => rw [hp] at hc; cases hc
        | err e => rw [hp] at hc; cases hc; exact h.add _ _
        | ok payload => rw [hp] at hc; exact (h.add _ _).raw hc
      simp only at hr
      split at hr
      · cases hr; exact h1
      · exact ih h1 hr

end BinW

/-- The calls that `Encoder.encode` records are calls of the writer. -/
theorem encodeFileTo_made {empty : ε → Bool} {lz : LZ4} {u : Bool} {f : FormatModel} {s : σ} {calls : List (Spec.Call ε)}
    {r : Option (Nat × Fail ε)} (h : encodeFileTo W empty lz u f s = .ok (calls, r)) : ∃ s', Made W s calls s' := by
  unfold encodeFileTo at h
  have h0 : BinW.Honest W s (⟨⟨s, []⟩, 0, none⟩ : BinW σ ε) := Made.nil
  have h1 : BinW.Honest W s (BinW.header W f.version f.classCount f.instanceCount ⟨⟨s, []⟩, 0, none⟩) :=
    ((((h0.bytes _).bytes _).bytes _).bytes _).bytes _
  simp only at h
  generalize BinW.header W f.version f.classCount f.instanceCount (⟨⟨s, []⟩, 0, none⟩ : BinW σ ε) = b1 at h1 h
  by_cases he : b1.err.isSome
  · rw [if_pos he] at h; cases h; exact ⟨_, h1⟩
  · rw [if_neg he] at h
    cases hc : BinW.chunks W lz u f.chunks b1 with
    | panic => rw [hc] at h; cases h
    | err e => rw [hc] at h; cases h
    | ok b2 =>
      rw [hc] at h
      have h2 := BinW.Honest.chunks f.chunks h1 hc
      simp only at h
      by_cases he2 : b2.err.isSome
      · rw [if_pos he2] at h; cases h; exact ⟨_, h2⟩
      · rw [if_neg he2] at h; cases h; exact ⟨_, h2.bytes _⟩

end Rbxl

import Verif.Go.Reader
import Verif.Rbxl.ModelLemmas
import Verif.Rbxl.CodecDecode
/-!
# Decoding the binary format from a reader (rbxl/decoder.go, rbxl/model.go)

`parse.BinaryReader` (github.com/anaminus/parse) keeps the number of bytes read and the first error. `Bytes` and `Number`
are `io.ReadFull`, `All` is `io.ReadAll`. The argument `fuel` bounds the number of calls of `Read` in one of these, and
the number of chunks; if it does not suffice, the result is `running`.
-/
namespace Rbxl
open Go Spec

/-- The cause of a failure of the decoder: an error of its own, the end of the data, or an error of the reader. -/
inductive Cause (ε : Type) where
  | inner (e : Err)
  | eof
  | reader (e : ε)
  deriving DecidableEq

/-- The end of the data, as a cause. -/
def Cause.stop {ε : Type} : Stop ε → Cause ε
  | .eof => .eof
  | .fail e => .reader e

/-- `parse.BinaryReader`: the reader and `N()`. -/
structure BinR (σ : Type) where
  state : σ
  n : Nat

/-- The outcome of a part of the decoder. -/
inductive Run (σ ε α : Type) where
  | ok (a : α) (r : BinR σ)
  | fail (c : Cause ε) (r : BinR σ)
  | panic
  | running

/-- A part of the decoder, which reads. -/
abbrev RdW (σ ε α : Type) := BinR σ → Run σ ε α

namespace RdW
variable {σ ε α β : Type}

/-- Nothing is read. -/
def pure (a : α) : RdW σ ε α := fun r => .ok a r

/-- One part after the other. -/
def bind (x : RdW σ ε α) (f : α → RdW σ ε β) : RdW σ ε β := fun r =>
  match x r with
  | .ok a r => f a r
  | .fail c r => .fail c r
  | .panic => .panic
  | .running => .running

instance : Monad (RdW σ ε) where
  pure := pure
  bind := bind

/-- `fr.Add(0, err)`, or the result. -/
def lift (x : Res α) : RdW σ ε α := fun r =>
  match x with
  | .ok a => .ok a r
  | .err e => .fail (.inner e) r
  | .panic => .panic

variable (R : Reader σ ε) (fuel : Nat)

/-- `fr.Bytes(p)` with `len(p) = k`. -/
def bytes (k : Nat) : RdW σ ε Bytes := fun r =>
  match readFull R fuel r.state k with
  | none => .running
  | some (s, d, none) => .ok d ⟨s, r.n + d.length⟩
  | some (s, d, some x) => .fail (.stop x) ⟨s, r.n + d.length⟩

/-- `fr.Number(&x)` for a two-byte `x`. -/
def num16 : RdW σ ε (BitVec 16) := do
  let d ← bytes R fuel 2
  lift (Prod.fst <$> readLe16 d)

/-- `fr.Number(&x)` for a four-byte `x`. -/
def num32 : RdW σ ε (BitVec 32) := do
  let d ← bytes R fuel 4
  lift (Prod.fst <$> readLe32 d)

/-- `fr.All()`. -/
def all (grow : Nat → Nat) : RdW σ ε Bytes := fun r =>
  match readAll R grow fuel r.state 0 with
  | none => .running
  | some (s, d, none) => .ok d ⟨s, r.n + d.length⟩
  | some (s, d, some x) => .fail (.reader x) ⟨s, r.n + d.length⟩

/-- `rawChunk.Decode` (rbxl/model.go:153-203). -/
def raw (lz : LZ4) : RdW σ ε Raw := do
  let sig ← num32 R fuel
  let compressedLength ← num32 R fuel
  let decompressedLength ← num32 R fuel
  let _reserved ← num32 R fuel
  if compressedLength = 0#32 then do
    let payload ← bytes R fuel decompressedLength.toNat
    pure ⟨sig, false, payload⟩
  else if (compressedLength + 4#32).toNat < 4 then lift .panic
  else do
    let data ← bytes R fuel compressedLength.toNat
    let payload ← lift (lz.dec decompressedLength data)
    pure ⟨sig, true, payload⟩

/-- The first part of `Decoder.decode` (rbxl/decoder.go:101-172). In case of the XML format, the result is the signature
that has been read. -/
def start (noXML : Bool) : RdW σ ε (Sum Bytes (BitVec 32 × BitVec 32 × Bytes)) := do
  let signature ← bytes R fuel 8
  if signature.take 7 ≠ robloxSig then lift (.err (.other "invalid signature"))
  else if signature.drop 7 ≠ binaryMarker then
    if noXML then lift (.err (.other "invalid signature")) else pure (.inl signature)
  else do
    let header ← bytes R fuel 6
    if header ≠ binaryHeader then lift (.err (.other "the file header is corrupted"))
    else do
      let version ← num16 R fuel
      if version ≠ 0#16 then lift (.err (.other "unrecognized version"))
      else do
        let classCount ← num32 R fuel
        let instanceCount ← num32 R fuel
        let reserved ← bytes R fuel 8
        pure (.inr (classCount, instanceCount, reserved))

/-- `decodeChunks` (rbxl/decoder.go:194-274). The second argument bounds the number of chunks. -/
def chunks (lz : LZ4) (slack : Bytes → Nat) : Nat → LoopState → BinR σ → LoopState × Run σ ε Unit
  | 0, st, _ => (st, .running)
  | k + 1, st, r =>
    match raw R fuel lz r with
    | .running => (st, .running)
    | .panic => (st, .panic)
    | .fail c r => (st, .fail c r)
    | .ok c r =>
      match stepChunk slack st c with
      | .panic => (st, .panic)
      | .err e => (st, .fail (.inner e) r)
      | .ok (st, true) => (st, .ok () r)
      | .ok (st, false) => chunks lz slack k st r

/-- `decompressChunks` (rbxl/decoder.go:276-301). -/
def rawChunks (lz : LZ4) : Nat → LoopState → BinR σ → LoopState × Run σ ε Unit
  | 0, st, _ => (st, .running)
  | k + 1, st, r =>
    match raw R fuel lz r with
    | .running => (st, .running)
    | .panic => (st, .panic)
    | .fail c r => (st, .fail c r)
    | .ok c r =>
      let st := { st with
        chunks := st.chunks ++ [⟨.unknown c.sig c.payload, c.compressed⟩]
        stats := { st.stats with
          chunkTypes := countType st.stats.chunkTypes c.sig
          chunks := st.stats.chunks + 1 } }
      if c.sig = sigEND then (st, .ok () r) else rawChunks lz k st r

end RdW

/-- What `Decoder.decode` returns: the model, or, if the format is XML, the signature that has been read. -/
inductive DecodedW where
  | xml (signature : Bytes)
  | model (f : FormatModel)

/-- The trailing content (rbxl/decoder.go:184-191). -/
def trailingFrom {σ ε : Type} (R : Reader σ ε) (grow : Nat → Nat) (fuel : Nat) (classCount instanceCount : BitVec 32) (st : LoopState) :
    Run σ ε Unit → Run σ ε DecodedW
  | .running => .running
  | .panic => .panic
  | .fail c r => .fail c r
  | .ok () r =>
    match RdW.all R fuel grow r with
    | .running => .running
    | .panic => .panic
    | .fail c r => .fail c r
    | .ok trailing r => .ok (.model ⟨0, classCount, instanceCount, st.chunks, trailing, st.groups⟩) r

/-- `Decoder.decode` (rbxl/decoder.go:101-192) from a reader in state `s`: warnings, statistics and result, with the
number of bytes read, which is the offset of a `DataError`. -/
def decodeFileFrom {σ ε : Type} (R : Reader σ ε) (grow : Nat → Nat) (fuel : Nat) (lz : LZ4) (slack : Bytes → Nat)
    (noXML dcomp : Bool) (s : σ) : List Warn × Stats × Run σ ε DecodedW :=
  match RdW.start R fuel noXML ⟨s, 0⟩ with
  | .running => ([], {}, .running)
  | .panic => ([], {}, .panic)
  | .fail c r => ([], {}, .fail c r)
  | .ok (.inl sig) r => ([], { xml := true }, .ok (.xml sig) r)
  | .ok (.inr (classCount, instanceCount, reserved)) r =>
    let st0 : LoopState := {
      warns := if reserved ≠ List.replicate 8 0#8 then [.reserve reserved] else []
      stats := { classCount := classCount, instanceCount := instanceCount } }
    let out := if dcomp then RdW.rawChunks R fuel lz fuel st0 r else RdW.chunks R fuel lz slack fuel st0 r
    (out.1.warns, out.1.stats,
      trailingFrom R grow fuel classCount instanceCount out.1 out.2)

/-! ### Comparison with the functions on byte strings -/

/-- The error of the functions on byte strings when bytes are missing. -/
def missing : Err := .other "EOF"

section
variable {σ ε α β : Type} {R : Reader σ ε} {e : Stop ε}

/-- The reader is left with `rest`, a part at the end of `b`, and the count of `k` has been raised by the difference. -/
structure Left (R : Reader σ ε) (e : Stop ε) (b : Bytes) (k : Nat) (rest : Bytes) (r : BinR σ) : Prop where
  yields : Yields R e r.state rest
  suffix : rest <:+ b
  count : r.n + rest.length = k + b.length

/-- The failure `x` of a function on `b` corresponds to a failure on a reader: with the rest `w`, or, if `w` is `none`, at
the end of the data. -/
def FailsAs (R : Reader σ ε) (e : Stop ε) (b : Bytes) (k : Nat) (w : Option Bytes) (x : Err) (c : Cause ε) (r : BinR σ) : Prop :=
  match w with
  | some rest => c = .inner x ∧ Left R e b k rest r
  | none => x = missing ∧ c = .stop e ∧ Left R e b k [] r

/-- The outcome of a function on `b` corresponds to the outcome on a reader. -/
def Agrees (R : Reader σ ε) (e : Stop ε) (b : Bytes) (k : Nat) (w : Option Bytes) : Res (α × Bytes) → Run σ ε α → Prop
  | .ok (a, rest), .ok a' r => a' = a ∧ Left R e b k rest r
  | .err x, .fail c r => FailsAs R e b k w x c r
  | .panic, .panic => True
  | _, _ => False

/-- A part of the decoder, for any reader and any number of steps allowed. -/
abbrev Prog (α : Type) := ∀ {σ ε : Type}, Reader σ ε → Nat → RdW σ ε α

/-- A part of the decoder does with a reader what the function does with the data of the reader; how much is left when
it fails depends only on the data. -/
def Sim (f : Prog α) (g : Rd α) : Prop :=
  ∀ b : Bytes, ∃ w : Option Bytes, ∀ {σ ε : Type} (R : Reader σ ε) (e : Stop ε) (s : σ) (k : Nat), Yields R e s b →
    ∃ N x, (∀ fuel, N ≤ fuel → f R fuel ⟨s, k⟩ = x) ∧ Agrees R e b k w (g b) x

theorem Left.trans {b b1 b2 : Bytes} {k : Nat} {r r' : BinR σ} (h : Left R e b k b1 r) (h' : Left R e b1 r.n b2 r') :
    Left R e b k b2 r' :=
  ⟨h'.yields, h'.suffix.trans h.suffix, by have := h.count; have := h'.count; omega⟩

theorem FailsAs.after {b b1 : Bytes} {k : Nat} {r r' : BinR σ} {w : Option Bytes} {x : Err} {c : Cause ε} (h : Left R e b k b1 r)
    (h' : FailsAs R e b1 r.n w x c r') : FailsAs R e b k w x c r' := by
  cases w with
  | some rest => exact ⟨h'.1, h.trans h'.2⟩
  | none => exact ⟨h'.1, h'.2.1, h.trans h'.2.2⟩

theorem Agrees.after {b b1 : Bytes} {k : Nat} {r : BinR σ} {w : Option Bytes} {x : Res (α × Bytes)} {y : Run σ ε α}
    (h : Left R e b k b1 r) (h' : Agrees R e b1 r.n w x y) : Agrees R e b k w x y := by
  cases x with
  | panic => cases y <;> simp only [Agrees] at h' ⊢
  | err x =>
    cases y <;> simp only [Agrees] at h' ⊢
    exact h'.after h
  | ok a =>
    obtain ⟨a, rest⟩ := a
    cases y <;> simp only [Agrees] at h' ⊢
    exact ⟨h'.1, h.trans h'.2⟩

theorem Left.refl {s : σ} {b : Bytes} (k : Nat) (h : Yields R e s b) : Left R e b k b ⟨s, k⟩ :=
  ⟨h, List.suffix_refl _, rfl⟩

theorem Sim.pure (a : α) : Sim (fun _ _ => RdW.pure a) (Pure.pure a : Rd α) := by
  intro b
  refine ⟨none, ?_⟩
  intro σ ε R e s k h
  exact ⟨0, _, fun _ _ => rfl, rfl, Left.refl k h⟩

theorem Sim.lift (x : Res α) : Sim (fun _ _ => RdW.lift x) (liftRes x) := by
  intro b
  refine ⟨some b, ?_⟩
  intro σ ε R e s k h
  refine ⟨0, _, fun _ _ => rfl, ?_⟩
  cases x with
  | ok a => exact ⟨rfl, Left.refl k h⟩
  | err x => exact ⟨rfl, Left.refl k h⟩
  | panic => trivial

theorem Sim.bind {f : Prog α} {g : Rd α} {f' : α → Prog β} {g' : α → Rd β} (h : Sim f g)
    (h' : ∀ a, Sim (f' a) (g' a)) : Sim (fun R fuel => (f R fuel).bind fun a => f' a R fuel) (g >>= g') := by
  intro b
  obtain ⟨w, h⟩ := h b
  have hb : (g >>= g') b = (g b >>= fun p => g' p.1 p.2) := rfl
  rw [hb]
  cases hg : g b with
  | panic =>
    refine ⟨w, ?_⟩
    intro σ ε R e s k hy
    obtain ⟨N, x, h1, h2⟩ := h R e s k hy
    rw [hg] at h2
    cases x <;> simp only [Agrees] at h2
    exact ⟨N, .panic, fun fuel hf => by simp only [RdW.bind, h1 fuel hf], trivial⟩
  | err y =>
    refine ⟨w, ?_⟩
    intro σ ε R e s k hy
    obtain ⟨N, x, h1, h2⟩ := h R e s k hy
    rw [hg] at h2
    cases x <;> simp only [Agrees] at h2
    rename_i c r
    exact ⟨N, .fail c r, fun fuel hf => by simp only [RdW.bind, h1 fuel hf], h2⟩
  | ok p =>
    obtain ⟨a, rest⟩ := p
    obtain ⟨w', h'⟩ := h' a rest
    refine ⟨w', ?_⟩
    intro σ ε R e s k hy
    obtain ⟨N, x, h1, h2⟩ := h R e s k hy
    rw [hg] at h2
    cases x <;> simp only [Agrees] at h2
    rename_i a' r
    obtain ⟨rfl, hl⟩ := h2
    obtain ⟨N', y, h3, h4⟩ := h' R e r.state r.n hl.yields
    refine ⟨max N N', y, ?_, h4.after hl⟩
    intro fuel hf
    simp only [RdW.bind, h1 fuel (by omega)]
    exact h3 fuel (by omega)

theorem Sim.bytes (n : Nat) : Sim (fun R fuel => RdW.bytes R fuel n) (takeN n) := by
  intro b
  refine ⟨none, ?_⟩
  intro σ ε R e s k hy
  obtain ⟨N, s', h1, h2⟩ := readFull_yields hy n
  unfold takeN
  by_cases h : n ≤ b.length
  · rw [if_neg (by omega)]
    simp only [if_pos h] at h1
    refine ⟨N, .ok (b.take n) ⟨s', k + (b.take n).length⟩, fun fuel hf => by simp only [RdW.bytes, h1 fuel hf], ?_⟩
    exact ⟨rfl, h2, List.drop_suffix _ _, by simp only [List.length_take, List.length_drop]; omega⟩
  · rw [if_pos (by omega)]
    simp only [if_neg h] at h1
    refine ⟨N, .fail (.stop e) ⟨s', k + (b.take n).length⟩, fun fuel hf => by simp only [RdW.bytes, h1 fuel hf], ?_⟩
    rw [List.drop_of_length_le (by omega)] at h2
    exact ⟨rfl, rfl, h2, List.nil_suffix, by simp only [List.length_take, List.length_nil]; omega⟩

theorem num16_eq : num16 = (takeN 2 >>= fun d => liftRes (Prod.fst <$> readLe16 d)) := by
  funext b
  show _ = (takeN 2 b >>= fun p => liftRes (Prod.fst <$> readLe16 p.1) p.2)
  unfold num16 takeN
  by_cases h : b.length < 2
  · rw [if_pos h, if_pos h]; rfl
  · rw [if_neg h, if_neg h]
    match b, h with
    | a :: a1 :: r, _ => rfl
    | [_], h => simp at h
    | [], h => simp at h

theorem num32_eq : num32 = (takeN 4 >>= fun d => liftRes (Prod.fst <$> readLe32 d)) := by
  funext b
  show _ = (takeN 4 b >>= fun p => liftRes (Prod.fst <$> readLe32 p.1) p.2)
  unfold num32 takeN
  by_cases h : b.length < 4
  · rw [if_pos h, if_pos h]; rfl
  · rw [if_neg h, if_neg h]
    match b, h with
    | a :: a1 :: a2 :: a3 :: r, _ => rfl
    | [_, _, _], h => simp at h
    | [_, _], h => simp at h
    | [_], h => simp at h
    | [], h => simp at h

theorem Sim.num16 : Sim (fun R fuel => RdW.num16 R fuel) num16 := by
  rw [num16_eq]
  exact (Sim.bytes 2).bind fun d => Sim.lift _

theorem Sim.num32 : Sim (fun R fuel => RdW.num32 R fuel) num32 := by
  rw [num32_eq]
  exact (Sim.bytes 4).bind fun d => Sim.lift _

theorem Sim.raw (lz : LZ4) : Sim (fun R fuel => RdW.raw R fuel lz) (rawDecode lz) := by
  refine Sim.num32.bind fun sig => Sim.num32.bind fun cl => Sim.num32.bind fun dl => Sim.num32.bind fun _ => ?_
  by_cases h : cl = 0#32
  · simp only [if_pos h]
    exact (Sim.bytes _).bind fun d => Sim.pure _
  · simp only [if_neg h]
    by_cases h2 : (cl + 4#32).toNat < 4
    · simp only [if_pos h2]
      exact Sim.lift _
    · simp only [if_neg h2]
      exact (Sim.bytes _).bind fun d => (Sim.lift _).bind fun p => Sim.pure _

/-- The first part of the decoder, as a function that reads. -/
def startRd (noXML : Bool) : Rd (Sum Bytes (BitVec 32 × BitVec 32 × Bytes)) := do
  let signature ← takeN 8
  if signature.take 7 ≠ robloxSig then liftRes (.err (.other "invalid signature"))
  else if signature.drop 7 ≠ binaryMarker then
    if noXML then liftRes (.err (.other "invalid signature")) else Pure.pure (.inl signature)
  else do
    let header ← takeN 6
    if header ≠ binaryHeader then liftRes (.err (.other "the file header is corrupted"))
    else do
      let version ← num16
      if version ≠ 0#16 then liftRes (.err (.other "unrecognized version"))
      else do
        let classCount ← num32
        let instanceCount ← num32
        let reserved ← takeN 8
        Pure.pure (.inr (classCount, instanceCount, reserved))

/-- The result of the first part. -/
def startOf : Sum Bytes (BitVec 32 × BitVec 32 × Bytes) × Bytes → Start
  | (.inl signature, r) => .xml (signature ++ r)
  | (.inr (c, i, reserved), r) => .binary c i reserved r

theorem readStart_eq (noXML : Bool) (b : Bytes) : readStart noXML b = startOf <$> startRd noXML b := by
  unfold readStart startRd
  simp only [rd_bind]
  cases takeN 8 b with
  | err x => rfl
  | panic => rfl
  | ok p =>
    obtain ⟨sig, r⟩ := p
    simp only [Res.ok_bind]
    split
    · rfl
    · split
      · split <;> rfl
      · simp only [rd_bind]
        cases takeN 6 r with
        | err x => rfl
        | panic => rfl
        | ok p =>
          obtain ⟨header, r⟩ := p
          simp only [Res.ok_bind]
          split
          · rfl
          · simp only [rd_bind]
            cases num16 r with
            | err x => rfl
            | panic => rfl
            | ok p =>
              obtain ⟨version, r⟩ := p
              simp only [Res.ok_bind]
              split
              · rfl
              · simp only [rd_bind]
                cases num32 r with
                | err x => rfl
                | panic => rfl
                | ok p =>
                  obtain ⟨c, r⟩ := p
                  simp only [Res.ok_bind]
                  cases num32 r with
                  | err x => rfl
                  | panic => rfl
                  | ok p =>
                    obtain ⟨i, r⟩ := p
                    simp only [Res.ok_bind]
                    cases takeN 8 r with
                    | err x => rfl
                    | panic => rfl
                    | ok p => rfl

theorem Sim.start (noXML : Bool) : Sim (fun R fuel => RdW.start R fuel noXML) (startRd noXML) := by
  refine (Sim.bytes 8).bind fun sig => ?_
  by_cases h1 : sig.take 7 ≠ robloxSig
  · simp only [if_pos h1]; exact Sim.lift _
  · simp only [if_neg h1]
    by_cases h2 : sig.drop 7 ≠ binaryMarker
    · simp only [if_pos h2]
      cases noXML
      · exact Sim.pure _
      · simp only [if_true]; exact Sim.lift _
    · simp only [if_neg h2]
      refine (Sim.bytes 6).bind fun header => ?_
      by_cases h3 : header ≠ binaryHeader
      · simp only [if_pos h3]; exact Sim.lift _
      · simp only [if_neg h3]
        refine Sim.num16.bind fun v => ?_
        by_cases h4 : v ≠ 0#16
        · simp only [if_pos h4]; exact Sim.lift _
        · simp only [if_neg h4]
          exact Sim.num32.bind fun c => Sim.num32.bind fun i => (Sim.bytes 8).bind fun r => Sim.pure _

theorem rawDecode_consumes {lz : LZ4} {b : Bytes} {raw : Raw} {rest : Bytes} (h : rawDecode lz b = .ok (raw, rest)) :
    rest.length < b.length := by
  simp only [rawDecode, rd_bind, Res.bind_eq_ok] at h
  obtain ⟨⟨sig, r1⟩, h1, ⟨cl, r2⟩, h2, ⟨dl, r3⟩, h3, ⟨rv, r4⟩, h4, h⟩ := h
  have e1 := num32_ok h1; have e2 := num32_ok h2; have e3 := num32_ok h3; have e4 := num32_ok h4
  simp only at e1 e2 e3 e4 h
  have ht : ∀ {n : Nat} {b d r : Bytes}, takeN n b = .ok (d, r) → r.length ≤ b.length := by
    intro n b d r h
    unfold takeN at h
    split at h
    · cases h
    · cases h; simp
  have : rest.length ≤ r4.length := by
    split at h
    · simp only [rd_bind, Res.bind_eq_ok] at h
      obtain ⟨⟨p, r5⟩, h5, h⟩ := h
      cases h
      exact ht h5
    · split at h
      · cases h
      · simp only [rd_bind, Res.bind_eq_ok] at h
        obtain ⟨⟨p, r5⟩, h5, ⟨q, r6⟩, h6, h⟩ := h
        cases h
        simp only [liftRes, Res.bind_eq_ok] at h6
        obtain ⟨x, -, h6⟩ := h6
        cases h6
        exact ht h5
  subst e1 e2 e3 e4
  simp only [List.length_append, le32_length]
  omega

/-- The rest after a loop, as the result of a function that reads. -/
def noValue (x : Res Bytes) : Res (Unit × Bytes) := (fun r => ((), r)) <$> x

theorem chunks_sim (lz : LZ4) (slack : Bytes → Nat) : ∀ (p : Nat) (st : LoopState) (b : Bytes), b.length < p → ∃ w : Option Bytes,
    ∀ {σ ε : Type} (R : Reader σ ε) (e : Stop ε) (s : σ) (k : Nat), Yields R e s b →
      ∃ N x, (∀ fuel, N ≤ fuel → ∀ m, N ≤ m → RdW.chunks R fuel lz slack m st ⟨s, k⟩ = ((decodeChunks lz slack p st b).1, x)) ∧
        Agrees R e b k w (noValue (decodeChunks lz slack p st b).2) x := by
  intro p
  induction p with
  | zero => intro st b h; omega
  | succ p ih =>
    intro st b hp
    obtain ⟨w, hsim⟩ := Sim.raw lz b
    rw [decodeChunks]
    cases hr : rawDecode lz b with
    | panic =>
      refine ⟨w, ?_⟩
      intro σ ε R e s k hy
      obtain ⟨N, x, h1, h2⟩ := hsim R e s k hy
      rw [hr] at h2
      cases x <;> simp only [Agrees] at h2
      refine ⟨N + 1, .panic, ?_, trivial⟩
      intro fuel hf m hm
      obtain ⟨m, rfl⟩ : ∃ j, m = j + 1 := ⟨m - 1, by omega⟩
      simp only [RdW.chunks, h1 fuel (by omega)]
    | err y =>
      refine ⟨w, ?_⟩
      intro σ ε R e s k hy
      obtain ⟨N, x, h1, h2⟩ := hsim R e s k hy
      rw [hr] at h2
      cases x <;> simp only [Agrees] at h2
      rename_i c r
      refine ⟨N + 1, .fail c r, ?_, h2⟩
      intro fuel hf m hm
      obtain ⟨m, rfl⟩ : ∃ j, m = j + 1 := ⟨m - 1, by omega⟩
      simp only [RdW.chunks, h1 fuel (by omega)]
    | ok q =>
      obtain ⟨raw, rest⟩ := q
      have hc := rawDecode_consumes hr
      have hraw : ∀ {σ ε : Type} (R : Reader σ ε) (e : Stop ε) (s : σ) (k : Nat), Yields R e s b → ∃ N r,
          (∀ fuel, N ≤ fuel → RdW.raw R fuel lz ⟨s, k⟩ = .ok raw r) ∧ Left R e b k rest r := by
        intro σ ε R e s k hy
        obtain ⟨N, x, h1, h2⟩ := hsim R e s k hy
        rw [hr] at h2
        cases x <;> simp only [Agrees] at h2
        rename_i a r
        obtain ⟨rfl, hl⟩ := h2
        exact ⟨N, r, h1, hl⟩
      clear hsim
      simp only
      cases hs : stepChunk slack st raw with
      | panic =>
        refine ⟨none, ?_⟩
        intro σ ε R e s k hy
        obtain ⟨N, r, h1, hl⟩ := hraw R e s k hy
        refine ⟨N + 1, .panic, ?_, trivial⟩
        intro fuel hf m hm
        obtain ⟨m, rfl⟩ : ∃ j, m = j + 1 := ⟨m - 1, by omega⟩
        simp only [RdW.chunks, h1 fuel (by omega), hs]
      | err y =>
        refine ⟨some rest, ?_⟩
        intro σ ε R e s k hy
        obtain ⟨N, r, h1, hl⟩ := hraw R e s k hy
        refine ⟨N + 1, .fail (.inner y) r, ?_, rfl, hl⟩
        intro fuel hf m hm
        obtain ⟨m, rfl⟩ : ∃ j, m = j + 1 := ⟨m - 1, by omega⟩
        simp only [RdW.chunks, h1 fuel (by omega), hs]
      | ok q =>
        obtain ⟨st1, fin⟩ := q
        cases fin with
        | true =>
          refine ⟨none, ?_⟩
          intro σ ε R e s k hy
          obtain ⟨N, r, h1, hl⟩ := hraw R e s k hy
          refine ⟨N + 1, .ok () r, ?_, rfl, hl⟩
          intro fuel hf m hm
          obtain ⟨m, rfl⟩ : ∃ j, m = j + 1 := ⟨m - 1, by omega⟩
          simp only [RdW.chunks, h1 fuel (by omega), hs]
        | false =>
          obtain ⟨w', ih⟩ := ih st1 rest (by omega)
          refine ⟨w', ?_⟩
          intro σ ε R e s k hy
          obtain ⟨N, r, h1, hl⟩ := hraw R e s k hy
          obtain ⟨N', x, h3, h4⟩ := ih R e r.state r.n hl.yields
          refine ⟨max N N' + 1, x, ?_, h4.after hl⟩
          intro fuel hf m hm
          obtain ⟨m, rfl⟩ : ∃ j, m = j + 1 := ⟨m - 1, by omega⟩
          simp only [RdW.chunks, h1 fuel (by omega), hs]
          exact h3 fuel (by omega) m (by omega)

theorem rawChunks_sim (lz : LZ4) : ∀ (p : Nat) (st : LoopState) (b : Bytes), b.length < p → ∃ w : Option Bytes,
    ∀ {σ ε : Type} (R : Reader σ ε) (e : Stop ε) (s : σ) (k : Nat), Yields R e s b →
      ∃ N x, (∀ fuel, N ≤ fuel → ∀ m, N ≤ m → RdW.rawChunks R fuel lz m st ⟨s, k⟩ = ((decompressChunks lz p st b).1, x)) ∧
        Agrees R e b k w (noValue (decompressChunks lz p st b).2) x := by
  intro p
  induction p with
  | zero => intro st b h; omega
  | succ p ih =>
    intro st b hp
    obtain ⟨w, hsim⟩ := Sim.raw lz b
    rw [decompressChunks]
    cases hr : rawDecode lz b with
    | panic =>
      refine ⟨w, ?_⟩
      intro σ ε R e s k hy
      obtain ⟨N, x, h1, h2⟩ := hsim R e s k hy
      rw [hr] at h2
      cases x <;> simp only [Agrees] at h2
      refine ⟨N + 1, .panic, ?_, trivial⟩
      intro fuel hf m hm
      obtain ⟨m, rfl⟩ : ∃ j, m = j + 1 := ⟨m - 1, by omega⟩
      simp only [RdW.rawChunks, h1 fuel (by omega)]
    | err y =>
      refine ⟨w, ?_⟩
      intro σ ε R e s k hy
      obtain ⟨N, x, h1, h2⟩ := hsim R e s k hy
      rw [hr] at h2
      cases x <;> simp only [Agrees] at h2
      rename_i c r
      refine ⟨N + 1, .fail c r, ?_, h2⟩
      intro fuel hf m hm
      obtain ⟨m, rfl⟩ : ∃ j, m = j + 1 := ⟨m - 1, by omega⟩
      simp only [RdW.rawChunks, h1 fuel (by omega)]
    | ok q =>
      obtain ⟨raw, rest⟩ := q
      have hc := rawDecode_consumes hr
      have hraw : ∀ {σ ε : Type} (R : Reader σ ε) (e : Stop ε) (s : σ) (k : Nat), Yields R e s b → ∃ N r,
          (∀ fuel, N ≤ fuel → RdW.raw R fuel lz ⟨s, k⟩ = .ok raw r) ∧ Left R e b k rest r := by
        intro σ ε R e s k hy
        obtain ⟨N, x, h1, h2⟩ := hsim R e s k hy
        rw [hr] at h2
        cases x <;> simp only [Agrees] at h2
        rename_i a r
        obtain ⟨rfl, hl⟩ := h2
        exact ⟨N, r, h1, hl⟩
      clear hsim
      simp only
      by_cases hs : raw.sig = sigEND
      · rw [if_pos hs]
        refine ⟨none, ?_⟩
        intro σ ε R e s k hy
        obtain ⟨N, r, h1, hl⟩ := hraw R e s k hy
        refine ⟨N + 1, .ok () r, ?_, rfl, hl⟩
        intro fuel hf m hm
        obtain ⟨m, rfl⟩ : ∃ j, m = j + 1 := ⟨m - 1, by omega⟩
        simp only [RdW.rawChunks, h1 fuel (by omega), if_pos hs]
      · rw [if_neg hs]
        obtain ⟨w', ih⟩ := ih _ rest (by omega)
        refine ⟨w', ?_⟩
        intro σ ε R e s k hy
        obtain ⟨N, r, h1, hl⟩ := hraw R e s k hy
        obtain ⟨N', x, h3, h4⟩ := ih R e r.state r.n hl.yields
        refine ⟨max N N' + 1, x, ?_, h4.after hl⟩
        intro fuel hf m hm
        obtain ⟨m, rfl⟩ : ∃ j, m = j + 1 := ⟨m - 1, by omega⟩
        simp only [RdW.rawChunks, h1 fuel (by omega), if_neg hs]
        exact h3 fuel (by omega) m (by omega)

/-- The outcome of `Decoder.decode` on a reader, compared with that of the function on the data of the reader; `w` is what
is left after a failure, as in `FailsAs`. -/
def AgreesFile (R : Reader σ ε) (e : Stop ε) (b : Bytes) (w : Option Bytes) : Res Decoded → Run σ ε DecodedW → Prop
  | .ok (.xml content), .ok (.xml signature) r => ∃ rest, content = signature ++ rest ∧ content = b ∧ signature = b.take 8 ∧ Left R e b 0 rest r
  | .ok (.model f), .ok (.model f') r => e = .eof ∧ f' = f ∧ Left R e b 0 [] r
  | .ok (.model _), .fail c r => (∃ x, e = .fail x ∧ c = .reader x) ∧ Left R e b 0 [] r
  | .err x, .fail c r => FailsAs R e b 0 w x c r
  | .panic, .panic => True
  | _, _ => False

theorem all_sim (grow : Nat → Nat) {s : σ} {b : Bytes} (k : Nat) (hy : Yields R e s b) : ∃ N r, (∀ fuel, N ≤ fuel →
    RdW.all R fuel grow ⟨s, k⟩ = (match e with
      | .eof => .ok b r
      | .fail x => .fail (.reader x) r)) ∧ Left R e b k [] r := by
  obtain ⟨N, s', h1, h2⟩ := readAll_yields grow hy 0
  refine ⟨N, ⟨s', k + b.length⟩, ?_, h2, List.nil_suffix, rfl⟩
  intro fuel hf
  cases e <;> simp only [RdW.all, h1 fuel hf, Stop.err]

theorem startRd_xml {noXML : Bool} {b sig rest : Bytes} (h : startRd noXML b = .ok (.inl sig, rest)) : sig = b.take 8 ∧ rest = b.drop 8 := by
  unfold startRd at h
  simp only [rd_bind, Res.bind_eq_ok] at h
  obtain ⟨⟨d, r⟩, h1, h⟩ := h
  have h2 : d = b.take 8 ∧ r = b.drop 8 := by
    unfold takeN at h1
    split at h1
    · cases h1
    · cases h1; exact ⟨rfl, rfl⟩
  split at h
  · cases h
  split at h
  · split at h
    · cases h
    · cases h; exact h2
  · simp only [rd_bind, Res.bind_eq_ok] at h
    obtain ⟨⟨hd, r1⟩, -, h⟩ := h
    split at h
    · cases h
    simp only [rd_bind, Res.bind_eq_ok] at h
    obtain ⟨⟨v, r2⟩, -, h⟩ := h
    split at h
    · cases h
    simp only [rd_bind, Res.bind_eq_ok] at h
    obtain ⟨_, -, _, -, _, -, h⟩ := h
    cases h

/-- Decoding from a reader gives what decoding the data of the reader gives. -/
theorem decodeFileFrom_yields (lz : LZ4) (slack : Bytes → Nat) (noXML dcomp : Bool) (b : Bytes) : ∃ w : Option Bytes,
    ∀ {σ ε : Type} (R : Reader σ ε) (e : Stop ε) (grow : Nat → Nat) (s : σ), Yields R e s b →
      ∃ N x, (∀ fuel, N ≤ fuel → decodeFileFrom R grow fuel lz slack noXML dcomp s =
          ((decodeFile lz slack noXML dcomp b).1, (decodeFile lz slack noXML dcomp b).2.1, x)) ∧
        AgreesFile R e b w (decodeFile lz slack noXML dcomp b).2.2 x := by
  obtain ⟨w, hsim⟩ := Sim.start noXML b
  unfold decodeFile
  rw [readStart_eq]
  cases hs : startRd noXML b with
  | panic =>
    refine ⟨w, ?_⟩
    intro σ ε R e grow s hy
    obtain ⟨N, x, h1, h2⟩ := hsim R e s 0 hy
    simp only at h1
    rw [hs] at h2
    cases x <;> simp only [Agrees] at h2
    exact ⟨N, .panic, fun fuel hf => by unfold decodeFileFrom; rw [h1 fuel hf]; rfl, trivial⟩
  | err y =>
    refine ⟨w, ?_⟩
    intro σ ε R e grow s hy
    obtain ⟨N, x, h1, h2⟩ := hsim R e s 0 hy
    simp only at h1
    rw [hs] at h2
    cases x <;> simp only [Agrees] at h2
    rename_i c r
    exact ⟨N, .fail c r, fun fuel hf => by unfold decodeFileFrom; rw [h1 fuel hf]; rfl, h2⟩
  | ok q =>
    obtain ⟨a, rest⟩ := q
    have hstart : ∀ {σ ε : Type} (R : Reader σ ε) (e : Stop ε) (s : σ), Yields R e s b → ∃ N r,
        (∀ fuel, N ≤ fuel → RdW.start R fuel noXML ⟨s, 0⟩ = .ok a r) ∧ Left R e b 0 rest r := by
      intro σ ε R e s hy
      obtain ⟨N, x, h1, h2⟩ := hsim R e s 0 hy
      rw [hs] at h2
      cases x <;> simp only [Agrees] at h2
      rename_i a' r
      obtain ⟨rfl, hl⟩ := h2
      exact ⟨N, r, h1, hl⟩
    clear hsim
    rcases a with sig | ⟨cc, ic, reserved⟩
    · refine ⟨none, ?_⟩
      intro σ ε R e grow s hy
      obtain ⟨N, r, h1, hl⟩ := hstart R e s hy
      obtain ⟨e1, e2⟩ := startRd_xml hs
      exact ⟨N, .ok (.xml sig) r, fun fuel hf => by unfold decodeFileFrom; rw [h1 fuel hf]; rfl, rest, rfl,
        by rw [e1, e2]; exact List.take_append_drop _ _, e1, hl⟩
    · simp only [Res.ok_map, startOf]
      generalize hst0 : ({
        warns := if reserved ≠ List.replicate 8 0#8 then [.reserve reserved] else []
        stats := { classCount := cc, instanceCount := ic } } : LoopState) = st0
      have key : ∃ w : Option Bytes, ∀ {σ ε : Type} (R : Reader σ ε) (e : Stop ε) (r : BinR σ), Yields R e r.state rest → ∃ N x, (∀ fuel, N ≤ fuel → ∀ m, N ≤ m →
            (if dcomp then RdW.rawChunks R fuel lz m st0 r else RdW.chunks R fuel lz slack m st0 r) =
            ((if dcomp then decompressChunks lz (rest.length + 1) st0 rest
              else decodeChunks lz slack (rest.length + 1) st0 rest).1, x)) ∧
          Agrees R e rest r.n w (noValue (if dcomp then decompressChunks lz (rest.length + 1) st0 rest
            else decodeChunks lz slack (rest.length + 1) st0 rest).2) x := by
        cases dcomp with
        | true =>
          obtain ⟨w, h⟩ := rawChunks_sim lz _ st0 rest (Nat.lt_succ_self _)
          exact ⟨w, fun R e r hy => h R e r.state r.n hy⟩
        | false =>
          obtain ⟨w, h⟩ := chunks_sim lz slack _ st0 rest (Nat.lt_succ_self _)
          exact ⟨w, fun R e r hy => h R e r.state r.n hy⟩
      obtain ⟨w, key⟩ := key
      refine ⟨w, ?_⟩
      intro σ ε R e grow s hy
      obtain ⟨N, r, h1, hl⟩ := hstart R e s hy
      obtain ⟨N2, y, h3, h4⟩ := key R e r hl.yields
      clear key hstart
      generalize (if dcomp then decompressChunks lz (rest.length + 1) st0 rest
              else decodeChunks lz slack (rest.length + 1) st0 rest) = out at h3 h4
      obtain ⟨st, res⟩ := out
      have hrun : ∀ fuel, max N N2 ≤ fuel → decodeFileFrom R grow fuel lz slack noXML dcomp s = (st.warns, st.stats,
          trailingFrom R grow fuel cc ic st y) := by
        intro fuel hf
        unfold decodeFileFrom
        rw [h1 fuel (by omega)]
        simp only [hst0, h3 fuel (by omega) fuel (by omega)]
      cases res with
      | panic =>
        have h4 : Agrees R e rest r.n w (.panic : Res (Unit × Bytes)) y := h4
        cases y <;> simp only [Agrees] at h4
        exact ⟨_, .panic, hrun, trivial⟩
      | err z =>
        have h4 : Agrees R e rest r.n w (.err z : Res (Unit × Bytes)) y := h4
        cases y <;> simp only [Agrees] at h4
        exact ⟨_, _, hrun, h4.after hl⟩
      | ok trailing =>
        have h4 : Agrees R e rest r.n w (.ok ((), trailing)) y := h4
        cases y <;> simp only [Agrees] at h4
        rename_i u r1 _
        obtain ⟨-, hl1⟩ := h4
        obtain ⟨N3, r2, h5, hl2⟩ := all_sim grow r1.n hl1.yields
        have hl3 := (hl.trans hl1).trans hl2
        cases e with
        | eof =>
          refine ⟨max (max N N2) N3, .ok (.model ⟨0, cc, ic, st.chunks, trailing, st.groups⟩) r2, ?_, rfl, rfl, hl3⟩
          intro fuel hf
          rw [hrun fuel (by omega)]
          simp only [trailingFrom, h5 fuel (by omega)]
        | fail x =>
          refine ⟨max (max N N2) N3, .fail (.reader x) r2, ?_, ⟨x, rfl, rfl⟩, hl3⟩
          intro fuel hf
          rw [hrun fuel (by omega)]
          simp only [trailingFrom, h5 fuel (by omega)]

end
end Rbxl

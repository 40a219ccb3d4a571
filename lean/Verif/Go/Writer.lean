import Verif.Spec.Writer
/-!
# Writers: `io.Writer` and `bufio.Writer` of the Go library

The state of a writer is of any type; what a call does may depend on it. The contract of `io.Writer` is part of the
structure: at most the bytes offered are taken, and if not all of them are, there is an error.
-/
namespace Go
open Spec

/-- The result of a call: the new state, the number of bytes taken, and the error. -/
abbrev WriteResult (σ ε : Type) := σ × Nat × Option ε

/-- The contract of `io.Writer` for one call. -/
def WriteOk {σ ε : Type} (p : Bytes) (r : WriteResult σ ε) : Prop :=
  r.2.1 ≤ p.length ∧ (r.2.1 < p.length → r.2.2.isSome)

/-- An `io.Writer`; `writeString` is there if it also is an `io.StringWriter`. `shortWrite` is `io.ErrShortWrite`. -/
structure Writer (σ ε : Type) where
  write : σ → Bytes → WriteResult σ ε
  writeString : Option (σ → Bytes → WriteResult σ ε)
  shortWrite : ε
  write_ok : ∀ s p, WriteOk p (write s p)
  writeString_ok : ∀ f, writeString = some f → ∀ s p, WriteOk p (f s p)

/-- A writer in use: its state and the calls so far. -/
structure Sink (σ ε : Type) where
  state : σ
  calls : List (Call ε) := []

/-- A call is made and recorded. -/
def Sink.call {σ ε : Type} (k : Sink σ ε) (f : σ → Bytes → WriteResult σ ε) (p : Bytes) : Sink σ ε × Nat × Option ε :=
  let r := f k.state p
  (⟨r.1, k.calls ++ [⟨p, r.2.1, r.2.2⟩]⟩, r.2.1, r.2.2)

/-- `Made W s calls s'`: the calls are what the writer returned, one call after the other, from the state `s` to `s'`. -/
inductive Made {σ ε : Type} (W : Writer σ ε) (s : σ) : List (Call ε) → σ → Prop
  | nil : Made W s [] s
  | write {cs : List (Call ε)} {s1 s2 : σ} {p : Bytes} {n : Nat} {e : Option ε} :
      Made W s cs s1 → W.write s1 p = (s2, n, e) → Made W s (cs ++ [⟨p, n, e⟩]) s2
  | writeString {cs : List (Call ε)} {s1 s2 : σ} {f : σ → Bytes → WriteResult σ ε} {p : Bytes} {n : Nat} {e : Option ε} :
      Made W s cs s1 → W.writeString = some f → f s1 p = (s2, n, e) → Made W s (cs ++ [⟨p, n, e⟩]) s2

/-- A writer that does not fail from any state. -/
def Writer.Reliable {σ ε : Type} (W : Writer σ ε) : Prop :=
  (∀ s p, (W.write s p).2.2 = none) ∧ ∀ f, W.writeString = some f → ∀ s p, (f s p).2.2 = none

theorem Made.reliable {σ ε : Type} {W : Writer σ ε} (hr : W.Reliable) {s s' : σ} {cs : List (Call ε)} (h : Made W s cs s') :
    ∀ c ∈ cs, c.err = none := by
  induction h with
  | nil => intro c hc; cases hc
  | write _ h1 ih =>
    rename_i s1 s2 p n e _
    intro c hc
    rcases List.mem_append.1 hc with hc | hc
    · exact ih c hc
    · rw [List.mem_singleton.1 hc]
      have := hr.1 s1 p
      rw [h1] at this; exact this
  | writeString _ hf h1 ih =>
    rename_i s1 s2 f p n e _
    intro c hc
    rcases List.mem_append.1 hc with hc | hc
    · exact ih c hc
    · rw [List.mem_singleton.1 hc]
      have := hr.2 f hf s1 p
      rw [h1] at this; exact this

/-- What is delivered to a writer that does not fail. -/
theorem delivered_reliable {σ ε : Type} {W : Writer σ ε} (hr : W.Reliable) {s s' : σ} {cs : List (Call ε)} {err : Option ε} {out : Bytes}
    (h : Made W s cs s') (d : Delivered out cs err) : err = none ∧ received cs = out := by
  cases err with
  | none => exact ⟨rfl, d.1⟩
  | some e =>
    obtain ⟨-, before, last, rfl, he, -⟩ := d
    have := h.reliable hr last (by simp)
    rw [this] at he; cases he

theorem Sink.call_made {σ ε : Type} {W : Writer σ ε} {s : σ} {k : Sink σ ε} (h : Made W s k.calls k.state) (p : Bytes) :
    Made W s (k.call W.write p).1.calls (k.call W.write p).1.state := h.write rfl

theorem Sink.call_made' {σ ε : Type} {W : Writer σ ε} {s : σ} {k : Sink σ ε} (h : Made W s k.calls k.state) {f : σ → Bytes → WriteResult σ ε}
    (hf : W.writeString = some f) (p : Bytes) : Made W s (k.call f p).1.calls (k.call f p).1.state := h.writeString hf rfl

/-- `bufio.Writer`: the underlying writer, the bytes in the buffer (`b.buf[:b.n]`), and the error. -/
structure BufWriter (σ ε : Type) where
  sink : Sink σ ε
  buf : Bytes := []
  err : Option ε := none

/-- `defaultBufSize` of package bufio. -/
def bufSize : Nat := 4096

namespace BufWriter
variable {σ ε : Type} (W : Writer σ ε)

/-- `Writer.Flush` of package bufio. -/
def flush (b : BufWriter σ ε) : BufWriter σ ε :=
  if b.err.isSome then b
  else if b.buf = [] then b
  else
    let r := b.sink.call W.write b.buf
    match if r.2.1 < b.buf.length && r.2.2.isNone then some W.shortWrite else r.2.2 with
    | some e => ⟨r.1, b.buf.drop r.2.1, some e⟩
    | none => ⟨r.1, [], none⟩

/-- `Writer.WriteByte` of package bufio. -/
def writeByte (b : BufWriter σ ε) (c : Byte) : BufWriter σ ε :=
  if b.err.isSome then b
  else
    let b := if bufSize ≤ b.buf.length then b.flush W else b
    if b.err.isSome then b else { b with buf := b.buf ++ [c] }

/-- The loop of `Writer.Write` (`direct` is `write`) and of `Writer.WriteString` (`direct` is `writeString`, if there
is one) of package bufio: while the data does not fit, it is written directly if the buffer is empty and that is
possible; otherwise the buffer is filled and flushed. The first argument bounds the number of rounds. -/
def putLoop (direct : Option (σ → Bytes → WriteResult σ ε)) : Nat → BufWriter σ ε → Bytes → BufWriter σ ε
  | 0, b, _ => b
  | fuel + 1, b, p =>
    if b.err.isSome then b
    else if p.length ≤ bufSize - b.buf.length then { b with buf := b.buf ++ p }
    else
      match direct, b.buf with
      | some f, [] =>
        let r := b.sink.call f p
        putLoop direct fuel ⟨r.1, [], r.2.2⟩ (p.drop r.2.1)
      | _, _ =>
        let n := bufSize - b.buf.length
        putLoop direct fuel (flush W { b with buf := b.buf ++ p.take n }) (p.drop n)

/-- `Writer.Write` of package bufio. -/
def write (b : BufWriter σ ε) (p : Bytes) : BufWriter σ ε := putLoop W (some W.write) (p.length + 2) b p

/-- `Writer.WriteString` of package bufio. -/
def writeString (b : BufWriter σ ε) (p : Bytes) : BufWriter σ ε := putLoop W W.writeString (p.length + 2) b p

/-! ### What has been written -/

/-- The state of a buffered writer to which `out` has been written: as long as there is no error, `out` is what has
been received and what is in the buffer; otherwise a beginning of it has been received, and the last call failed. -/
def Wrote (b : BufWriter σ ε) (out : Bytes) : Prop :=
  b.buf.length ≤ bufSize ∧
  match b.err with
  | none => received b.sink.calls ++ b.buf = out ∧ ∀ c ∈ b.sink.calls, c.err = none
  | some e => Delivered out b.sink.calls (some e)

theorem wrote_none {b : BufWriter σ ε} {out : Bytes} (h : b.err = none) : b.Wrote out ↔
    b.buf.length ≤ bufSize ∧ received b.sink.calls ++ b.buf = out ∧ ∀ c ∈ b.sink.calls, c.err = none := by
  unfold Wrote; rw [h]

theorem wrote_some {b : BufWriter σ ε} {out : Bytes} {e : ε} (h : b.err = some e) : b.Wrote out ↔
    b.buf.length ≤ bufSize ∧ Delivered out b.sink.calls (some e) := by
  unfold Wrote; rw [h]

theorem Wrote.more {b : BufWriter σ ε} {out : Bytes} (h : b.Wrote out) (he : b.err.isSome) (q : Bytes) : b.Wrote (out ++ q) := by
  obtain ⟨e, he⟩ := Option.isSome_iff_exists.1 he
  rw [wrote_some he] at h ⊢
  obtain ⟨h0, h1, h2⟩ := h
  exact ⟨h0, h1.trans (List.prefix_append _ _), h2⟩

theorem received_snoc (cs : List (Call ε)) (c : Call ε) : received (cs ++ [c]) = received cs ++ c.data.take c.n := by
  simp [received]

theorem call_wrote {f : σ → Bytes → WriteResult σ ε} (hf : ∀ s p, WriteOk p (f s p)) {b : BufWriter σ ε} {out p : Bytes}
    (h : b.Wrote out) (he : b.err = none) (hb : b.buf = []) :
    ((b.sink.call f p).2.2 = none → (b.sink.call f p).2.1 = p.length ∧
      (⟨(b.sink.call f p).1, [], none⟩ : BufWriter σ ε).Wrote (out ++ p)) ∧
    ∀ e buf, (b.sink.call f p).2.2 = some e → buf.length ≤ bufSize →
      (⟨(b.sink.call f p).1, buf, some e⟩ : BufWriter σ ε).Wrote (out ++ p) := by
  rw [wrote_none he, hb, List.append_nil] at h
  obtain ⟨-, h1, h2⟩ := h
  have hok := hf b.sink.state p
  unfold WriteOk at hok
  simp only [Sink.call]
  rcases hr : f b.sink.state p with ⟨s', n, er⟩
  rw [hr] at hok
  simp only at hok ⊢
  refine ⟨?_, ?_⟩
  · rintro rfl
    have hn : n = p.length := by
      have := hok.2
      simp at this
      omega
    refine ⟨hn, (wrote_none rfl).2 ⟨by simp, ?_, ?_⟩⟩
    · rw [received_snoc, h1, hn, List.take_length, List.append_nil]
    · intro c hc
      rcases List.mem_append.1 hc with hc | hc
      · exact h2 c hc
      · rw [List.mem_singleton.1 hc]
  · rintro e buf rfl hlen
    refine (wrote_some rfl).2 ⟨hlen, ?_, _, _, rfl, rfl, h2⟩
    rw [received_snoc, h1]
    exact List.prefix_append_right_inj _ |>.2 (List.take_prefix _ _)

theorem flush_wrote {b : BufWriter σ ε} {out : Bytes} (h : b.Wrote out) :
    (b.flush W).Wrote out ∧ ((b.flush W).err = none → (b.flush W).buf = []) ∧ (b.err.isSome → b.flush W = b) := by
  unfold flush
  by_cases h1 : b.err.isSome
  · rw [if_pos h1]
    exact ⟨h, fun h2 => (by rw [h2] at h1; cases h1), fun _ => rfl⟩
  · rw [if_neg h1]
    have he : b.err = none := by simpa using h1
    by_cases h2 : b.buf = []
    · rw [if_pos h2]
      exact ⟨h, fun _ => h2, fun _ => rfl⟩
    · rw [if_neg h2]
      refine ⟨?_, ?_, fun h3 => absurd h3 h1⟩
      · have h' := (wrote_none he).1 h
        obtain ⟨hl, h3, h4⟩ := h'
        have h0 : ({ b with buf := [] } : BufWriter σ ε).Wrote (received b.sink.calls) :=
          (wrote_none (b := { b with buf := [] }) he).2 ⟨Nat.zero_le _, List.append_nil _, h4⟩
        obtain ⟨c1, c2⟩ := call_wrote (p := b.buf) W.write_ok h0 he rfl
        simp only at c1 c2
        have hok := W.write_ok b.sink.state b.buf
        rw [h3] at c1 c2
        rcases hr : b.sink.call W.write b.buf with ⟨k, n, er⟩
        rw [hr] at c1 c2
        simp only at c1 c2 ⊢
        cases er with
        | none =>
          obtain ⟨rfl, c3⟩ := c1 rfl
          simpa using c3
        | some e =>
          simp only [Option.isNone_some, Bool.and_false, Bool.false_eq_true, if_false]
          exact c2 e _ rfl (by rw [List.length_drop]; omega)
      · simp only
        split <;> simp

theorem writeByte_wrote {b : BufWriter σ ε} {out : Bytes} (h : b.Wrote out) (c : Byte) :
    (b.writeByte W c).Wrote (out ++ [c]) ∧ (b.err.isSome → b.writeByte W c = b) := by
  unfold writeByte
  by_cases h1 : b.err.isSome
  · rw [if_pos h1]
    exact ⟨h.more h1 _, fun _ => rfl⟩
  · rw [if_neg h1]
    refine ⟨?_, fun h2 => absurd h2 h1⟩
    have key : ∀ b' : BufWriter σ ε, b'.Wrote out → (b'.err = none → b'.buf.length < bufSize) →
        (if b'.err.isSome then b' else { b' with buf := b'.buf ++ [c] }).Wrote (out ++ [c]) := by
      intro b' hb' hl
      by_cases h2 : b'.err.isSome
      · rw [if_pos h2]
        exact hb'.more h2 _
      · rw [if_neg h2]
        have he : b'.err = none := by simpa using h2
        obtain ⟨-, a1, a2⟩ := (wrote_none he).1 hb'
        refine (wrote_none (b := { b' with buf := b'.buf ++ [c] }) he).2 ⟨?_, ?_, a2⟩
        · have := hl he
          simp only [List.length_append, List.length_singleton]; omega
        · simp only [← List.append_assoc, a1]
    simp only
    by_cases h3 : bufSize ≤ b.buf.length
    · rw [if_pos h3]
      obtain ⟨f1, f2, -⟩ := flush_wrote W h
      exact key _ f1 (fun he => by rw [f2 he]; simp [bufSize])
    · rw [if_neg h3]
      exact key _ h (fun _ => by omega)

theorem putLoop_err {direct : Option (σ → Bytes → WriteResult σ ε)} {b : BufWriter σ ε} (h : b.err.isSome) (fuel : Nat) (p : Bytes) :
    putLoop W direct fuel b p = b := by
  cases fuel with
  | zero => rfl
  | succ fuel => unfold putLoop; rw [if_pos h]

theorem putLoop_wrote {direct : Option (σ → Bytes → WriteResult σ ε)} (hd : ∀ f, direct = some f → ∀ s p, WriteOk p (f s p)) :
    ∀ (fuel : Nat) (b : BufWriter σ ε) (p out : Bytes), b.Wrote out → p.length + (if b.buf = [] then 0 else 1) < fuel →
      (putLoop W direct fuel b p).Wrote (out ++ p) := by
  intro fuel
  induction fuel with
  | zero => intro b p out _ h; omega
  | succ fuel ih =>
    intro b p out h hf
    unfold putLoop
    by_cases h1 : b.err.isSome
    · rw [if_pos h1]
      exact h.more h1 _
    · rw [if_neg h1]
      have he : b.err = none := by simpa using h1
      have hbl := h.1
      by_cases h2 : p.length ≤ bufSize - b.buf.length
      · rw [if_pos h2]
        obtain ⟨-, a1, a2⟩ := (wrote_none he).1 h
        refine (wrote_none (b := { b with buf := b.buf ++ p }) he).2 ⟨?_, ?_, a2⟩
        · simp only [List.length_append]; omega
        · simp only [← List.append_assoc, a1]
      · rw [if_neg h2]
        have fill : (putLoop W direct fuel (flush W { b with buf := b.buf ++ p.take (bufSize - b.buf.length) })
            (p.drop (bufSize - b.buf.length))).Wrote (out ++ p) := by
          have hw : ({ b with buf := b.buf ++ p.take (bufSize - b.buf.length) } : BufWriter σ ε).Wrote
              (out ++ p.take (bufSize - b.buf.length)) := by
            obtain ⟨-, a1, a2⟩ := (wrote_none he).1 h
            refine (wrote_none (b := { b with buf := b.buf ++ p.take (bufSize - b.buf.length) }) he).2 ⟨?_, ?_, a2⟩
            · simp only [List.length_append, List.length_take]; omega
            · simp only [← List.append_assoc, a1]
          obtain ⟨f1, f2, -⟩ := flush_wrote W hw
          have e : out ++ p = out ++ p.take (bufSize - b.buf.length) ++ p.drop (bufSize - b.buf.length) := by
            rw [List.append_assoc, List.take_append_drop]
          rw [e]
          generalize hg : flush W { b with buf := b.buf ++ p.take (bufSize - b.buf.length) } = g at f1 f2
          by_cases hge : g.err.isSome
          · rw [putLoop_err W hge]
            exact f1.more hge _
          · have hgn : g.err = none := by simpa using hge
            refine ih _ _ _ f1 ?_
            rw [f2 hgn, if_pos rfl, List.length_drop]
            by_cases hb : b.buf = []
            · rw [hb] at hf ⊢
              simp only [if_true, List.length_nil] at hf ⊢
              have : 0 < bufSize := by simp [bufSize]
              omega
            · rw [if_neg hb] at hf; omega
        cases direct with
        | none => exact fill
        | some f =>
          cases hb : b.buf with
          | cons x xs => rw [hb] at fill; exact fill
          | nil =>
            simp only
            obtain ⟨c1, c2⟩ := call_wrote (p := p) (hd f rfl) h he hb
            rcases hr : b.sink.call f p with ⟨k, n, er⟩
            rw [hr] at c1 c2
            simp only at c1 c2 ⊢
            cases er with
            | some e =>
              rw [putLoop_err W (by simp)]
              exact c2 e [] rfl (by simp)
            | none =>
              obtain ⟨rfl, c3⟩ := c1 rfl
              have := ih _ (p.drop p.length) _ c3 (by
                simp only [List.drop_length, List.length_nil, if_true]
                have : 0 < p.length := by omega
                omega)
              simpa using this

theorem write_wrote {b : BufWriter σ ε} {out : Bytes} (h : b.Wrote out) (p : Bytes) :
    (b.write W p).Wrote (out ++ p) ∧ (b.err.isSome → b.write W p = b) := by
  refine ⟨putLoop_wrote W ?_ _ _ _ _ h (by split <;> omega), fun he => putLoop_err W he _ _⟩
  rintro f hf
  cases hf
  exact W.write_ok

theorem writeString_wrote {b : BufWriter σ ε} {out : Bytes} (h : b.Wrote out) (p : Bytes) :
    (b.writeString W p).Wrote (out ++ p) ∧ (b.err.isSome → b.writeString W p = b) :=
  ⟨putLoop_wrote W W.writeString_ok _ _ _ _ h (by split <;> omega), fun he => putLoop_err W he _ _⟩

/-! ### The calls are those of the writer -/

/-- The calls recorded are calls of the writer. -/
def Honest (s : σ) (b : BufWriter σ ε) : Prop := Made W s b.sink.calls b.sink.state

theorem flush_honest {s : σ} {b : BufWriter σ ε} (h : Honest W s b) : Honest W s (b.flush W) := by
  unfold flush
  split
  · exact h
  · split
    · exact h
    · simp only
      split <;> exact Sink.call_made h _

theorem writeByte_honest {s : σ} {b : BufWriter σ ε} (h : Honest W s b) (c : Byte) : Honest W s (b.writeByte W c) := by
  unfold writeByte
  split
  · exact h
  · have : Honest W s (if bufSize ≤ b.buf.length then b.flush W else b) := by
      split
      · exact flush_honest W h
      · exact h
    simp only
    generalize (if bufSize ≤ b.buf.length then b.flush W else b) = b' at this ⊢
    split <;> exact this

theorem putLoop_honest {s : σ} {direct : Option (σ → Bytes → WriteResult σ ε)}
    (hd : ∀ f, direct = some f → ∀ (k : Sink σ ε) p, Made W s k.calls k.state → Made W s (k.call f p).1.calls (k.call f p).1.state) :
    ∀ (fuel : Nat) (b : BufWriter σ ε) (p : Bytes), Honest W s b → Honest W s (putLoop W direct fuel b p) := by
  intro fuel
  induction fuel with
  | zero => intro b p h; exact h
  | succ fuel ih =>
    intro b p h
    unfold putLoop
    split
    · exact h
    · split
      · exact h
      · split
        · exact ih _ _ (hd _ rfl _ _ h)
        · exact ih _ _ (flush_honest W h)

theorem write_honest {s : σ} {b : BufWriter σ ε} (h : Honest W s b) (p : Bytes) : Honest W s (b.write W p) :=
  putLoop_honest W (by rintro f hf k p hk; cases hf; exact Sink.call_made hk p) _ _ _ h

theorem writeString_honest {s : σ} {b : BufWriter σ ε} (h : Honest W s b) (p : Bytes) : Honest W s (b.writeString W p) :=
  putLoop_honest W (fun _ hf _ p hk => Sink.call_made' hk hf p) _ _ _ h

end BufWriter
end Go

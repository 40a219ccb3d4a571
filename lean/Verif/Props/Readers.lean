import Verif.Rbxl.ReadRoot
import Verif.Props.EncodeExamples
import Verif.Props.Writers
/-!
# C76: decoding the binary format from a reader that may fail

`R` is any reader that keeps the contract of `io.Reader`, `s` its state. `Yields R e s b` (Verif.Spec.Reader): the reader
delivers the bytes `b`, in pieces of any size, and then `e`, which is `io.EOF` or another error. `decodeRoot` is the
decoder as a function, which the other theorems are about; `decodeRootFrom` is the decoder as it calls the reader.
-/
namespace Props
open Go Rbxfile Spec Rbxl

/-! ## Readers for the examples -/

/-- A reader that delivers its state, at most `k + 1` bytes at a time, and then the error `e`, which comes with the last
piece if `early` is set. -/
def piece (k : Nat) (early : Bool) (e : Stop Nat) (b : Bytes) (n : Nat) : Bytes × Bytes × Option (Stop Nat) :=
  let m := min n (k + 1)
  if b = [] then ([], [], some e)
  else (b.drop m, b.take m, if early && decide (b.length ≤ m) then some e else none)

/-- The reader. -/
def pieces (k : Nat) (early : Bool) (e : Stop Nat) : Reader Bytes Nat where
  read := piece k early e
  read_ok := by
    intro b n
    unfold piece
    simp only
    split
    · exact Nat.zero_le _
    · simp only [List.length_take]; omega

theorem pieces_yields' (k : Nat) (early : Bool) (e : Stop Nat) : ∀ (m : Nat) (b : Bytes), b.length ≤ m → Yields (pieces k early e) e b b := by
  have hnil : ∀ n, (pieces k early e).read [] n = ([], [], some e) := fun n => by simp [pieces, piece]
  have hdead : Dead (pieces k early e) e [] := ⟨fun b => b = [], rfl, fun b hb n _ => ⟨[], by rw [hb]; exact hnil n, rfl⟩⟩
  have hcons : ∀ (b : Bytes) n, b ≠ [] → (pieces k early e).read b n =
      (b.drop (min n (k + 1)), b.take (min n (k + 1)), if early && decide (b.length ≤ min n (k + 1)) then some e else none) := by
    intro b n hb
    show piece k early e b n = _
    unfold piece
    rw [if_neg hb]
  intro m
  induction m with
  | zero =>
    intro b hb
    have : b = [] := List.eq_nil_of_length_eq_zero (by omega)
    subst this
    exact dead_yields hdead
  | succ m ih =>
    intro b hb
    by_cases hb0 : b = []
    · subst hb0; exact dead_yields hdead
    have hlen : 0 < b.length := List.length_pos_iff.2 hb0
    refine .mk ?_ ?_ ?_
    · intro n _ _
      rw [hcons b n hb0]
      exact List.take_prefix _ _
    · intro n hn _
      rw [hcons b n hb0]
      simp only [List.length_take]
      have : List.drop (min (min n (k + 1)) b.length) b = List.drop (min n (k + 1)) b := by
        by_cases h : min n (k + 1) ≤ b.length
        · rw [Nat.min_eq_left h]
        · rw [List.drop_of_length_le (Nat.le_of_eq ?_), List.drop_of_length_le (by omega)]
          omega
      rw [this]
      apply ih
      simp only [List.length_drop]; omega
    · intro n hn x hx
      rw [hcons b n hb0] at hx ⊢
      simp only at hx ⊢
      split at hx
      · rename_i hc
        simp only [Bool.and_eq_true, decide_eq_true_eq] at hc
        cases hx
        refine ⟨rfl, List.take_of_length_le hc.2, ?_⟩
        rw [List.drop_of_length_le hc.2]; exact hdead
      · cases hx

/-- The reader delivers its state. -/
theorem pieces_yields (k : Nat) (early : Bool) (e : Stop Nat) (b : Bytes) : Yields (pieces k early e) e b b :=
  pieces_yields' k early e b.length b (Nat.le_refl _)

/-! ## C76 -/

section
variable {σ ε σ' ε' : Type} {R : Reader σ ε} {s : σ} {b : Bytes} (grow : Nat → Nat) (lz : LZ4) (slack : Bytes → Nat) (quat : Quat)
  (noXML : Bool)

/-- The result of the decoder on a reader that delivers `b` and then the end of the file is that of the decoder on `b`.
If the format is XML, the XML decoder is given a reader with the same content. In case of an error, the offset is the
number of bytes that have been taken from the reader. -/
def SameResult (R : Reader σ ε) (b : Bytes) : Res Out → RootResult σ ε → Prop
  | .ok (.tree h root), .tree h' root' left => h' = h ∧ root' = root ∧ Yields R .eof left []
  | .ok (.xml content), .xml sig left => content = b ∧ sig = b.take 8 ∧ Yields R .eof left (b.drop 8)
  | .err x, .data off c left => off ≤ b.length ∧ Yields R .eof left (b.drop off) ∧
      (c = .inner x ∨ (x = missing ∧ c = .eof ∧ off = b.length))
  | .err x, .codec y left => y = x ∧ Yields R .eof left []
  | .panic, .panic => True
  | _, _ => False

/-- The result of the decoder on a reader that delivers `b` and then the error `x`: never a tree. It is either the error
which the decoder reports for `b`, or `x`, with the number of bytes as the offset. If the format is XML, the XML decoder
is given a reader that delivers `b` and then `x`. -/
def BrokenResult (R : Reader σ ε) (b : Bytes) (x : ε) : Res Out → RootResult σ ε → Prop
  | d, .data off c left => off ≤ b.length ∧ Yields R (.fail x) left (b.drop off) ∧
      ((∃ y, d = .err y ∧ c = .inner y) ∨ (c = .reader x ∧ off = b.length))
  | .ok (.xml content), .xml sig left => content = b ∧ sig = b.take 8 ∧ Yields R (.fail x) left (b.drop 8)
  | .panic, .panic => True
  | _, _ => False

theorem left_drop {e : Stop ε} {rest : Bytes} {r : BinR σ} (h : Left R e b 0 rest r) : r.n ≤ b.length ∧ rest = b.drop r.n := by
  obtain ⟨-, ⟨p, rfl⟩, hc⟩ := h
  simp only [List.length_append] at hc ⊢
  have : r.n = p.length := by omega
  exact ⟨by omega, by rw [this, List.drop_left]⟩

/-- Decoding from a reader is decoding the bytes that it delivers. -/
theorem C76_reads (hy : Yields R .eof s b) : ∃ N, ∀ fuel, N ≤ fuel →
    let o := decodeRootFrom R grow fuel lz slack quat noXML s
    let d := decodeRoot lz slack quat noXML b
    o.warns = d.warns ∧ o.codecWarns = d.codecWarns ∧ o.stats = d.stats ∧ SameResult R b d.result o.result := by
  obtain ⟨w, h⟩ := decodeFileFrom_yields lz slack noXML false b
  obtain ⟨N, x, h1, h2⟩ := h R .eof grow s hy
  refine ⟨N, fun fuel hf => ?_⟩
  unfold decodeRootFrom decodeRoot
  rw [h1 fuel hf]
  rcases hd : decodeFile lz slack noXML false b with ⟨ws, st, res⟩
  rw [hd] at h2
  simp only at h2 ⊢
  cases res with
  | panic => cases x <;> simp only [AgreesFile] at h2; exact ⟨rfl, rfl, rfl, trivial⟩
  | err y =>
    cases x <;> simp only [AgreesFile] at h2
    rename_i c r
    refine ⟨rfl, rfl, rfl, ?_⟩
    unfold FailsAs at h2
    cases w with
    | some rest =>
      obtain ⟨rfl, hl⟩ := h2
      obtain ⟨h3, rfl⟩ := left_drop hl
      exact ⟨h3, hl.yields, .inl rfl⟩
    | none =>
      obtain ⟨rfl, rfl, hl⟩ := h2
      obtain ⟨h3, h4⟩ := left_drop hl
      have h5 := hl.count
      simp only [List.length_nil] at h5
      exact ⟨h3, h4 ▸ hl.yields, .inr ⟨rfl, rfl, by show r.n = _; omega⟩⟩
  | ok y =>
    cases y with
    | xml content =>
      cases x with
      | ok z r =>
        cases z with
        | xml sig =>
          obtain ⟨rest, h3, h4, h5, hl⟩ := h2
          refine ⟨rfl, rfl, rfl, h4, h5, ?_⟩
          have : rest = b.drop 8 := by
            have : b.take 8 ++ rest = b.take 8 ++ b.drop 8 := by rw [← h5, ← h3, h5, List.take_append_drop, h4]
            exact List.append_cancel_left this
          exact this ▸ hl.yields
        | model f => exact h2.elim
      | _ => exact h2.elim
    | model f =>
      cases x with
      | ok z r =>
        cases z with
        | xml sig => exact h2.elim
        | model f' =>
          obtain ⟨-, rfl, hl⟩ := h2
          refine ⟨rfl, rfl, rfl, ?_⟩
          show SameResult R b ((codecDecode quat f').2 >>= fun x => pure (Out.tree x.1 x.2)) (RootResult.ofCodec r.state (codecDecode quat f').2)
          cases (codecDecode quat f').2 with
          | panic => trivial
          | err z => exact ⟨rfl, hl.yields⟩
          | ok z => exact ⟨rfl, rfl, hl.yields⟩
      | fail c r => obtain ⟨⟨z, h3, -⟩, -⟩ := h2; cases h3
      | _ => exact h2.elim

/-- Decoding from a reader that fails gives an error. -/
theorem C76_broken {x : ε} (hy : Yields R (.fail x) s b) : ∃ N, ∀ fuel, N ≤ fuel →
    let o := decodeRootFrom R grow fuel lz slack quat noXML s
    let d := decodeRoot lz slack quat noXML b
    o.warns = d.warns ∧ o.codecWarns = [] ∧ o.stats = d.stats ∧ BrokenResult R b x d.result o.result := by
  obtain ⟨w, h⟩ := decodeFileFrom_yields lz slack noXML false b
  obtain ⟨N, z, h1, h2⟩ := h R (.fail x) grow s hy
  refine ⟨N, fun fuel hf => ?_⟩
  unfold decodeRootFrom decodeRoot
  rw [h1 fuel hf]
  rcases hd : decodeFile lz slack noXML false b with ⟨ws, st, res⟩
  rw [hd] at h2
  simp only at h2 ⊢
  cases res with
  | panic => cases z <;> simp only [AgreesFile] at h2; exact ⟨rfl, rfl, rfl, trivial⟩
  | err y =>
    cases z <;> simp only [AgreesFile] at h2
    rename_i c r
    refine ⟨rfl, rfl, rfl, ?_⟩
    unfold FailsAs at h2
    cases w with
    | some rest =>
      obtain ⟨rfl, hl⟩ := h2
      obtain ⟨h3, rfl⟩ := left_drop hl
      exact ⟨h3, hl.yields, .inl ⟨y, rfl, rfl⟩⟩
    | none =>
      obtain ⟨rfl, rfl, hl⟩ := h2
      obtain ⟨h3, h4⟩ := left_drop hl
      have h5 := hl.count
      simp only [List.length_nil] at h5
      exact ⟨h3, h4 ▸ hl.yields, .inr ⟨rfl, by show r.n = _; omega⟩⟩
  | ok y =>
    cases y with
    | xml content =>
      cases z with
      | ok z r =>
        cases z with
        | xml sig =>
          obtain ⟨rest, h3, h4, h5, hl⟩ := h2
          refine ⟨rfl, rfl, rfl, h4, h5, ?_⟩
          have : rest = b.drop 8 := by
            have : b.take 8 ++ rest = b.take 8 ++ b.drop 8 := by rw [← h5, ← h3, h5, List.take_append_drop, h4]
            exact List.append_cancel_left this
          exact this ▸ hl.yields
        | model f => exact h2.elim
      | _ => exact h2.elim
    | model f =>
      cases z with
      | ok z r =>
        cases z with
        | xml sig => exact h2.elim
        | model f' => cases h2.1
      | fail c r =>
        obtain ⟨⟨z, h3, rfl⟩, hl⟩ := h2
        cases h3
        obtain ⟨h3, h4⟩ := left_drop hl
        have h5 := hl.count
        simp only [List.length_nil] at h5
        exact ⟨rfl, rfl, rfl, h3, h4 ▸ hl.yields, .inr ⟨rfl, by show r.n = _; omega⟩⟩
      | _ => exact h2.elim

/-- What the caller sees of a result. -/
inductive Visible (ε : Type) where
  | tree (heap : Heap Id) (root : Root Id)
  | xml (signature : Bytes)
  | data (offset : Nat) (cause : Cause ε)
  | codec (e : Err)
  | panic
  | running

/-- The result without the state of the reader. -/
def visible : RootResult σ ε → Visible ε
  | .tree h root _ => .tree h root
  | .xml sig _ => .xml sig
  | .data off c _ => .data off c
  | .codec e _ => .codec e
  | .panic => .panic
  | .running => .running

theorem failsAs_det {R' : Reader σ' ε} {e : Stop ε} {w : Option Bytes} {x : Err} {c c' : Cause ε} {r : BinR σ} {r' : BinR σ'}
    (h : FailsAs R e b 0 w x c r) (h' : FailsAs R' e b 0 w x c' r') : c = c' ∧ r.n = r'.n := by
  cases w with
  | some rest =>
    obtain ⟨rfl, hl⟩ := h
    obtain ⟨rfl, hl'⟩ := h'
    have := hl.count; have := hl'.count
    exact ⟨rfl, by omega⟩
  | none =>
    obtain ⟨-, rfl, hl⟩ := h
    obtain ⟨-, rfl, hl'⟩ := h'
    have := hl.count; have := hl'.count
    exact ⟨rfl, by omega⟩

/-- How the bytes are divided into pieces, in which calls no bytes are returned, and whether the error that ends them comes
with the last piece makes no difference: two readers that deliver the same give the same warnings, statistics and
result, including the offset of an error. -/
theorem C76_pieces {R' : Reader σ' ε} {s' : σ'} {e : Stop ε} (grow' : Nat → Nat) (hy : Yields R e s b) (hy' : Yields R' e s' b) :
    ∃ N, ∀ fuel fuel', N ≤ fuel → N ≤ fuel' →
      let o := decodeRootFrom R grow fuel lz slack quat noXML s
      let o' := decodeRootFrom R' grow' fuel' lz slack quat noXML s'
      visible o.result ≠ .running ∧ o.warns = o'.warns ∧ o.codecWarns = o'.codecWarns ∧ o.stats = o'.stats ∧ visible o.result = visible o'.result := by
  obtain ⟨w, h⟩ := decodeFileFrom_yields lz slack noXML false b
  obtain ⟨N, x, h1, h2⟩ := h R e grow s hy
  obtain ⟨N', x', h1', h2'⟩ := h R' e grow' s' hy'
  refine ⟨max N N', fun fuel fuel' hf hf' => ?_⟩
  unfold decodeRootFrom
  rw [h1 fuel (by omega), h1' fuel' (by omega)]
  rcases hd : decodeFile lz slack noXML false b with ⟨ws, st, res⟩
  rw [hd] at h2 h2'
  simp only at h2 h2' ⊢
  cases res with
  | panic =>
    cases x <;> simp only [AgreesFile] at h2
    cases x' <;> simp only [AgreesFile] at h2'
    exact ⟨nofun, rfl, rfl, rfl, rfl⟩
  | err y =>
    cases x <;> simp only [AgreesFile] at h2
    cases x' <;> simp only [AgreesFile] at h2'
    obtain ⟨rfl, h3⟩ := failsAs_det h2 h2'
    simp only [h3]
    exact ⟨nofun, trivial, trivial, trivial, rfl⟩
  | ok y =>
    cases y with
    | xml content =>
      cases x with
      | ok z r =>
        cases z with
        | xml sig =>
          cases x' with
          | ok z' r' =>
            cases z' with
            | xml sig' =>
              obtain ⟨_, -, -, rfl, -⟩ := h2
              obtain ⟨_, -, -, rfl, -⟩ := h2'
              exact ⟨nofun, rfl, rfl, rfl, rfl⟩
            | model f => exact h2'.elim
          | _ => exact h2'.elim
        | model f => exact h2.elim
      | _ => exact h2.elim
    | model f =>
      cases x with
      | ok z r =>
        cases z with
        | xml sig => exact h2.elim
        | model f1 =>
          obtain ⟨rfl, rfl, hl⟩ := h2
          cases x' with
          | ok z' r' =>
            cases z' with
            | xml sig => exact h2'.elim
            | model f2 =>
              obtain ⟨-, rfl, hl'⟩ := h2'
              refine ⟨?_, rfl, rfl, rfl, ?_⟩
              · show visible (RootResult.ofCodec r.state (codecDecode quat f2).2) ≠ .running
                cases (codecDecode quat f2).2 <;> nofun
              · show visible (RootResult.ofCodec r.state (codecDecode quat f2).2) = visible (RootResult.ofCodec r'.state (codecDecode quat f2).2)
                cases (codecDecode quat f2).2 <;> rfl
          | fail c r => obtain ⟨⟨z, h3, -⟩, -⟩ := h2'; cases h3
          | _ => exact h2'.elim
      | fail c r =>
        obtain ⟨⟨z, rfl, rfl⟩, hl⟩ := h2
        cases x' with
        | ok z' r' =>
          cases z' with
          | xml sig => exact h2'.elim
          | model f2 => cases h2'.1
        | fail c' r' =>
          obtain ⟨⟨z', h3, rfl⟩, hl'⟩ := h2'
          cases h3
          have := hl.count; have := hl'.count
          have : r.n = r'.n := by omega
          simp only [this]
          exact ⟨nofun, trivial, trivial, trivial, rfl⟩
        | _ => exact h2'.elim
      | _ => exact h2.elim

/-- Decompressing from a reader to a writer is decompressing the bytes that the reader delivers: what is sent to the
writer is the decompressed file, as in C74. -/
theorem C74_decompress_partial {W : Writer σ' ε'} {empty : ε' → Bool} (hempty : ∀ e, empty e = false) {ws : List Warn} {out : Bytes}
    (hy : Yields R .eof s b) (hd : decompress lz noXML b = (ws, .ok out)) (s' : σ') : ∃ N, ∀ fuel, N ≤ fuel →
      ∃ calls err s2, decompressFrom R W empty grow fuel lz noXML s s' = (ws, .written calls err) ∧ Made W s' calls s2 ∧
        ((err = none ∧ Delivered out calls none) ∨ ∃ off e, err = some (off, .writer e) ∧ Delivered out calls (some e)) := by
  obtain ⟨w, h⟩ := decodeFileFrom_yields lz (fun _ => 0) noXML true b
  obtain ⟨N, x, h1, h2⟩ := h R .eof grow s hy
  refine ⟨N, fun fuel hf => ?_⟩
  unfold decompressFrom
  rw [h1 fuel hf]
  unfold decompress at hd
  rcases he : decodeFile lz (fun _ => 0) noXML true b with ⟨ws1, st, res⟩
  rw [he] at h2 hd
  simp only at h2 ⊢
  cases res with
  | panic => cases hd
  | err y => cases hd
  | ok y =>
    cases y with
    | xml c => cases hd
    | model f =>
      simp only [Prod.mk.injEq] at hd
      obtain ⟨rfl, hf⟩ := hd
      cases x with
      | ok z r =>
        cases z with
        | xml sig => exact h2.elim
        | model f' =>
          obtain ⟨-, rfl, hl⟩ := h2
          obtain ⟨v, k, hr, -, hw, -⟩ := Rbxl.encodeFileTo_run W empty hf s'
          obtain ⟨s2, hm⟩ := Rbxl.encodeFileTo_made W hr
          refine ⟨v.sink.calls, Rbxl.encodeError empty v, s2, ?_, hm, ?_⟩
          · simp only [hr]; rfl
          · unfold Rbxl.encodeError
            rcases hw.cases with hn | ⟨e, hn⟩
            · rw [hn]; exact .inl ⟨rfl, hw.wr.ok hn⟩
            · rw [hn]
              simp only [hempty e, Bool.false_eq_true, if_false]
              exact .inr ⟨_, e, rfl, hw.wr.writer e hn⟩
      | fail c r => obtain ⟨⟨z, h3, -⟩, -⟩ := h2; cases h3
      | _ => exact h2.elim

/-- If the writer does not fail, it receives the decompressed file. -/
theorem C76_decompress {W : Writer σ' ε'} {empty : ε' → Bool} (hw : W.Reliable) {ws : List Warn} {out : Bytes}
    (hy : Yields R .eof s b) (hd : decompress lz noXML b = (ws, .ok out)) (s' : σ') : ∃ N, ∀ fuel, N ≤ fuel →
      ∃ calls s2, decompressFrom R W empty grow fuel lz noXML s s' = (ws, .written calls none) ∧ Made W s' calls s2 ∧ received calls = out := by
  obtain ⟨w, h⟩ := decodeFileFrom_yields lz (fun _ => 0) noXML true b
  obtain ⟨N, x, h1, h2⟩ := h R .eof grow s hy
  refine ⟨N, fun fuel hf => ?_⟩
  unfold decompressFrom
  rw [h1 fuel hf]
  unfold decompress at hd
  rcases he : decodeFile lz (fun _ => 0) noXML true b with ⟨ws1, st, res⟩
  rw [he] at h2 hd
  simp only at h2 ⊢
  cases res with
  | panic => cases hd
  | err y => cases hd
  | ok y =>
    cases y with
    | xml c => cases hd
    | model f =>
      simp only [Prod.mk.injEq] at hd
      obtain ⟨rfl, hf⟩ := hd
      cases x with
      | ok z r =>
        cases z with
        | xml sig => exact h2.elim
        | model f' =>
          obtain ⟨-, rfl, hl⟩ := h2
          obtain ⟨v, k, hr, -, hv, -⟩ := Rbxl.encodeFileTo_run W empty hf s'
          obtain ⟨s2, hm⟩ := Rbxl.encodeFileTo_made W hr
          rcases hv.cases with hn | ⟨e, hn⟩
          · refine ⟨v.sink.calls, s2, ?_, hm, (hv.wr.ok hn).1⟩
            have : Rbxl.encodeError empty v = none := by unfold Rbxl.encodeError; rw [hn]
            simp only [hr, this]; rfl
          · exact absurd (delivered_reliable hw hm (hv.wr.writer e hn)).1 nofun
      | fail c r => obtain ⟨⟨z, h3, -⟩, -⟩ := h2; cases h3
      | _ => exact h2.elim

/-- If the reader fails, nothing is decompressed: the writer is not called, and an error is reported (or there is a panic,
if there would be one without the failure). -/
theorem C76_decompress_broken {W : Writer σ' ε'} {empty : ε' → Bool} {x : ε} (hy : Yields R (.fail x) s b) (s' : σ') : ∃ N, ∀ fuel, N ≤ fuel →
    match (decompressFrom R W empty grow fuel lz noXML s s').2 with
    | .data off c => off ≤ b.length ∧ ((∃ y, (decompress lz noXML b).2 = .err y ∧ c = .inner y) ∨ (c = .reader x ∧ off = b.length))
    | .xml => ∃ y, (decompress lz noXML b).2 = .err y
    | .panic => (decompress lz noXML b).2 = .panic
    | _ => False := by
  obtain ⟨w, h⟩ := decodeFileFrom_yields lz (fun _ => 0) noXML true b
  obtain ⟨N, z, h1, h2⟩ := h R (.fail x) grow s hy
  refine ⟨N, fun fuel hf => ?_⟩
  unfold decompressFrom decompress
  rw [h1 fuel hf]
  rcases he : decodeFile lz (fun _ => 0) noXML true b with ⟨ws1, st, res⟩
  rw [he] at h2
  simp only at h2 ⊢
  cases res with
  | panic => cases z <;> simp only [AgreesFile] at h2 ⊢
  | err y =>
    cases z <;> simp only [AgreesFile] at h2 ⊢
    unfold FailsAs at h2
    cases w with
    | some rest =>
      obtain ⟨rfl, hl⟩ := h2
      exact ⟨(left_drop hl).1, .inl ⟨y, rfl, rfl⟩⟩
    | none =>
      obtain ⟨rfl, rfl, hl⟩ := h2
      have h5 := hl.count
      simp only [List.length_nil] at h5
      exact ⟨(left_drop hl).1, .inr ⟨rfl, by omega⟩⟩
  | ok y =>
    cases y with
    | xml content =>
      cases z with
      | ok z r =>
        cases z with
        | xml sig => exact ⟨_, rfl⟩
        | model f => exact h2.elim
      | _ => exact h2.elim
    | model f =>
      cases z with
      | ok z r =>
        cases z with
        | xml sig => exact h2.elim
        | model f' => cases h2.1
      | fail c r =>
        obtain ⟨⟨z, h3, rfl⟩, hl⟩ := h2
        cases h3
        have h5 := hl.count
        simp only [List.length_nil] at h5
        exact ⟨(left_drop hl).1, .inr ⟨rfl, by omega⟩⟩
      | _ => exact h2.elim

end

/-- A file with one instance, which has one property. -/
def exFile : Bytes :=
  [60#8, 114#8, 111#8, 98#8, 108#8, 111#8, 120#8, 33#8, 137#8, 255#8, 13#8, 10#8, 26#8, 10#8, 0#8, 0#8, 1#8, 0#8, 0#8,
    0#8, 1#8, 0#8, 0#8, 0#8, 0#8, 0#8, 0#8, 0#8, 0#8, 0#8, 0#8, 0#8, 73#8, 78#8, 83#8, 84#8, 0#8, 0#8, 0#8, 0#8, 18#8,
    0#8, 0#8, 0#8, 0#8, 0#8, 0#8, 0#8, 0#8, 0#8, 0#8, 0#8, 1#8, 0#8, 0#8, 0#8, 65#8, 0#8, 1#8, 0#8, 0#8, 0#8, 0#8, 0#8,
    0#8, 0#8, 80#8, 82#8, 79#8, 80#8, 0#8, 0#8, 0#8, 0#8, 14#8, 0#8, 0#8, 0#8, 0#8, 0#8, 0#8, 0#8, 0#8, 0#8, 0#8, 0#8,
    1#8, 0#8, 0#8, 0#8, 80#8, 3#8, 0#8, 0#8, 0#8, 10#8, 80#8, 82#8, 78#8, 84#8, 0#8, 0#8, 0#8, 0#8, 13#8, 0#8, 0#8,
    0#8, 0#8, 0#8, 0#8, 0#8, 0#8, 1#8, 0#8, 0#8, 0#8, 0#8, 0#8, 0#8, 0#8, 0#8, 0#8, 0#8, 1#8, 69#8, 78#8, 68#8, 0#8,
    0#8, 0#8, 0#8, 0#8, 9#8, 0#8, 0#8, 0#8, 0#8, 0#8, 0#8, 0#8, 60#8, 47#8, 114#8, 111#8, 98#8, 108#8, 111#8, 120#8,
    62#8]

/-- What is observed of a result: the number of instances of the tree, or the error. -/
def shape {σ : Type} : RootResult σ Nat → Option (Sum Nat (Nat × Cause Nat))
  | .tree h _ _ => some (.inl h.length)
  | .data off c _ => some (.inr (off, c))
  | _ => none

/-- The decoder on a reader with pieces of at most `k + 1` bytes. -/
def exFrom (k : Nat) (early : Bool) (e : Stop Nat) (b : Bytes) : RootOut Bytes Nat :=
  decodeRootFrom (pieces k early e) (fun n => n) 200 LZ4.stored (fun _ => 0) (fun _ _ _ _ => zeroMatrix) true b

/-- A file is read in pieces of one byte, and in pieces of seven bytes, with the end of the file reported with the last. -/
example : shape (exFrom 0 false .eof exFile).result = some (.inl 1) ∧ shape (exFrom 6 true .eof exFile).result = some (.inl 1) := by
  decide +kernel

/-- The same file, but error 7 follows it. -/
example : shape (exFrom 6 true (.fail 7) exFile).result = some (.inr (150, .reader 7)) := by
  decide +kernel

/-- Error 7 follows the first 100 bytes of it. -/
example : shape (exFrom 6 false (.fail 7) (exFile.take 100)).result = some (.inr (100, .reader 7)) := by
  decide +kernel

/-- The first 100 bytes of it, followed by the end of the file. -/
example : shape (exFrom 6 false .eof (exFile.take 100)).result = some (.inr (100, .eof)) := by
  decide +kernel

/-- The signature is wrong; only the signature is read. -/
example : shape (exFrom 6 false (.fail 7) (str "<robloy!0123456789")).result = some (.inr (8, .inner (.other "invalid signature"))) := by
  decide +kernel

/-- A file is decompressed to a writer that has room for it. -/
example : (match (decompressFrom (pieces 4 true .eof) limited (fun _ => false) (fun n => n) 200 LZ4.stored true exFile 1000).2 with
    | .written calls err => some ((received calls).length, err)
    | _ => none) = some (150, none) := by
  decide +kernel

end Props

import Verif.Rbxl.WriteTo
import Verif.Rbxlx.WriteToLemmas
import Verif.Props.EncodeExamples
import Verif.Props.XmlTreeExamples
/-!
# C73, C74, C75: encoding to a writer that may fail

`W` is any writer that keeps the contract of `io.Writer`, `s` its state. `Made W s calls s'`: the calls are those that
were really made. `Delivered out calls err` (Verif.Spec.Writer) says what it means that `out` is written, `err` being
reported. `encode` and `encodeRoot` are the encoders as functions, which the other theorems are about; `encodeTo` and
`encodeRootTo` are the encoders as they call the writer.
-/
namespace Props
open Go Rbxfile Spec

/-- A writer that takes as many bytes as its state says, and then fails with error 5. -/
def limited : Writer Nat Nat where
  write := fun n p => if p.length ≤ n then (n - p.length, p.length, none) else (0, n, some 5)
  writeString := none
  shortWrite := 0
  write_ok := by
    intro s p
    by_cases h : p.length ≤ s
    · rw [if_pos h]; exact ⟨Nat.le_refl _, fun h => absurd h (Nat.lt_irrefl _)⟩
    · rw [if_neg h]; exact ⟨by show s ≤ _; omega, fun _ => rfl⟩
  writeString_ok := by intro f h; cases h

/-! ## C73: XML -/

section
variable {σ ε ρ : Type} [DecidableEq ρ] (W : Writer σ ε) {P : Rbxlx.Params} {L : Rbxlx.Layout} {h h1 : Heap ρ} {root : Root ρ} {b : Bytes}

/-- Whatever the writer does, what the encoder sends it is the encoding of the tree: if no error is reported, all of it
has arrived, and no call failed; if an error is reported, it is that of the last call, no other call failed, and a
beginning of the encoding has arrived. -/
theorem C73_delivers (he : Rbxlx.encode P L h root = .ok (b, h1)) (s : σ) :
    ∃ calls err s', Rbxlx.encodeTo W P L h root s = .ok ((calls, err), h1) ∧ Made W s calls s' ∧ Delivered b calls err := by
  unfold Rbxlx.encode at he
  unfold Rbxlx.encodeTo
  cases hc : Rbxlx.codecEncode P h root with
  | panic => rw [hc] at he; cases he
  | err e => rw [hc] at he; cases he
  | ok x =>
    obtain ⟨t, h2⟩ := x
    rw [hc] at he
    simp only [Res.ok.injEq, Prod.mk.injEq] at he
    obtain ⟨rfl, rfl⟩ := he
    obtain ⟨s', hm⟩ := Rbxlx.writeToW_made (W := W) ⟨L.pre, if L.indent = [] && !L.noDefaultIndent then str "\t" else L.indent, L.suffix,
      L.excludeRoot, some t⟩ s
    exact ⟨_, _, s', rfl, hm, Rbxlx.writeToW_delivered W _ s⟩

/-- A writer that does not fail receives the encoding. -/
theorem C73_reliable (he : Rbxlx.encode P L h root = .ok (b, h1)) (hr : W.Reliable) (s : σ) :
    ∃ calls s', Rbxlx.encodeTo W P L h root s = .ok ((calls, none), h1) ∧ Made W s calls s' ∧ received calls = b := by
  obtain ⟨calls, err, s', h2, hm, hd⟩ := C73_delivers W he s
  obtain ⟨rfl, hb⟩ := delivered_reliable hr hm hd
  exact ⟨calls, s', h2, hm, hb⟩

/-- A tree that cannot be encoded is rejected, and the writer is not called. -/
theorem C73_rejects {e : Err} (he : Rbxlx.encode P L h root = .err e) (s : σ) : Rbxlx.encodeTo W P L h root s = .err e := by
  unfold Rbxlx.encode at he
  unfold Rbxlx.encodeTo
  cases hc : Rbxlx.codecEncode P h root with
  | panic => rw [hc] at he; cases he
  | err e' => rw [hc] at he; cases he; rfl
  | ok x => obtain ⟨t, h2⟩ := x; rw [hc] at he; cases he

/-- If the encoding does not panic, it does not panic with any writer. -/
theorem C73_panics (he : Rbxlx.encode P L h root ≠ .panic) (s : σ) : Rbxlx.encodeTo W P L h root s ≠ .panic := by
  cases hx : Rbxlx.encode P L h root with
  | panic => exact absurd hx he
  | err e => rw [C73_rejects W hx]; nofun
  | ok x =>
    obtain ⟨b, h1⟩ := x
    obtain ⟨calls, err, s', h2, -⟩ := C73_delivers W hx s
    rw [h2]; nofun
end

/-- What is observed of an encoding: the bytes received and the error. -/
def seen {ε ε' ρ : Type} (x : Res ((List (Call ε) × Option ε') × Heap ρ)) : Option (Bytes × Option ε') :=
  match x with
  | .ok ((calls, err), _) => some (received calls, err)
  | _ => none

/-- A tree is encoded to a writer that takes all of it. -/
example : seen (Rbxlx.encodeTo limited exP { noDefaultIndent := true, excludeRoot := true } (oneHeap (.int 5)) { instances := [0] } 1000) =
    some (str "<External>null</External><External>nil</External><Item class=\"A\" referent=\"RBX00000000000040008000000000000000\"><Properties><int name=\"P\">5</int></Properties></Item>", none) := by
  decide +kernel

/-- It is encoded to a writer that fails after 40 bytes. -/
example : seen (Rbxlx.encodeTo limited exP {} (oneHeap (.int 5)) { instances := [0] } 40) =
    some (str "<roblox xmlns:xmime=\"http://www.w3.org/2", some 5) := by
  decide +kernel

/-! ## C74: binary -/

section
variable {σ ε ρ : Type} [DecidableEq ρ] (W : Writer σ ε) {empty : ε → Bool} {lz : Rbxl.LZ4} {u : Bool} {it : Iter} {srt : Sorter}
  {hash : Bytes → Bytes} {place : Bool} {h : Heap ρ} {root : Root ρ} {b : Bytes}

/-- The encodings of a tree as chunks. -/
theorem encodeRoot_ok (he : Rbxl.encodeRoot lz u it srt hash place h root = .ok b) :
    ∃ f, Rbxl.codecEncode it srt hash place h root = .ok f ∧ Rbxl.encodeFile lz u f = .ok b := by
  unfold Rbxl.encodeRoot at he
  cases hc : Rbxl.codecEncode it srt hash place h root with
  | panic => rw [hc] at he; cases he
  | err e => rw [hc] at he; cases he
  | ok f => rw [hc] at he; exact ⟨f, rfl, he⟩

/-- Whatever the writer does, what the encoder sends it is the encoding of the tree: if no error is reported, all of it
has arrived, and no call failed; if an error is reported, it is that of the last call, no other call failed, and a
beginning of the encoding has arrived. It is assumed that no error of the writer is an empty list of errors (the type
`errors.Errors` of this module). -/
theorem C74_delivers_partial (hempty : ∀ e, empty e = false) (he : Rbxl.encodeRoot lz u it srt hash place h root = .ok b) (s : σ) :
    ∃ calls err s', Rbxl.encodeRootTo W empty lz u it srt hash place h root s = .ok (calls, err) ∧ Made W s calls s' ∧
      ((err = none ∧ Delivered b calls none) ∨ ∃ off e, err = some (off, .writer e) ∧ Delivered b calls (some e)) := by
  obtain ⟨f, hc, hf⟩ := encodeRoot_ok he
  obtain ⟨w, k, hr, -, hw, -⟩ := Rbxl.encodeFileTo_run W empty hf s
  obtain ⟨s', hm⟩ := Rbxl.encodeFileTo_made W hr
  refine ⟨w.sink.calls, Rbxl.encodeError empty w, s', ?_, hm, ?_⟩
  · unfold Rbxl.encodeRootTo; rw [hc]; exact hr
  · unfold Rbxl.encodeError
    rcases hw.cases with hn | ⟨e, hn⟩
    · rw [hn]; exact .inl ⟨rfl, hw.wr.ok hn⟩
    · rw [hn]
      simp only [hempty e, Bool.false_eq_true, if_false]
      exact .inr ⟨_, e, rfl, hw.wr.writer e hn⟩

/-- A writer that does not fail receives the encoding. -/
theorem C74_reliable (he : Rbxl.encodeRoot lz u it srt hash place h root = .ok b) (hr : W.Reliable) (s : σ) :
    ∃ calls s', Rbxl.encodeRootTo W empty lz u it srt hash place h root s = .ok (calls, none) ∧ Made W s calls s' ∧ received calls = b := by
  obtain ⟨f, hc, hf⟩ := encodeRoot_ok he
  obtain ⟨w, k, hx, -, hw, -⟩ := Rbxl.encodeFileTo_run W empty hf s
  obtain ⟨s', hm⟩ := Rbxl.encodeFileTo_made W hx
  rcases hw.cases with hn | ⟨e, hn⟩
  · refine ⟨w.sink.calls, s', ?_, hm, (hw.wr.ok hn).1⟩
    unfold Rbxl.encodeRootTo
    rw [hc]
    have : Rbxl.encodeError empty w = none := by unfold Rbxl.encodeError; rw [hn]
    rw [← this]
    exact hx
  · exact absurd (delivered_reliable hr hm (hw.wr.writer e hn)).1 nofun

/-- A tree that cannot be encoded is rejected: with the same error, all calls having succeeded, or with the error of the
writer, which failed at the last call; or with the same error and without calling the writer. -/
theorem C74_rejects_partial (hempty : ∀ e, empty e = false) {e : Err} (he : Rbxl.encodeRoot lz u it srt hash place h root = .err e) (s : σ) :
    Rbxl.encodeRootTo W empty lz u it srt hash place h root s = .err e ∨
    ∃ calls off cause s', Rbxl.encodeRootTo W empty lz u it srt hash place h root s = .ok (calls, some (off, cause)) ∧ Made W s calls s' ∧
      ((cause = .inner e ∧ ∀ c ∈ calls, c.err = none) ∨ ∃ w out, cause = .writer w ∧ Delivered out calls (some w)) := by
  unfold Rbxl.encodeRoot at he
  unfold Rbxl.encodeRootTo
  cases hc : Rbxl.codecEncode it srt hash place h root with
  | panic => rw [hc] at he; cases he
  | err e' => rw [hc] at he; cases he; exact .inl rfl
  | ok f =>
    rw [hc] at he
    refine .inr ?_
    obtain ⟨w, hr, hf⟩ := Rbxl.encodeFileTo_err W empty (f := f) he s
    obtain ⟨s', hm⟩ := Rbxl.encodeFileTo_made W hr
    rcases hf with ⟨h1, h2⟩ | ⟨x, h1, out, h2⟩
    · refine ⟨w.sink.calls, w.n, .inner e, s', ?_, hm, .inl ⟨rfl, h2⟩⟩
      have : Rbxl.encodeError empty w = some (w.n, .inner e) := by unfold Rbxl.encodeError; rw [h1]
      rw [← this]; exact hr
    · refine ⟨w.sink.calls, w.n, .writer x, s', ?_, hm, .inr ⟨x, out, rfl, h2⟩⟩
      have : Rbxl.encodeError empty w = some (w.n, .writer x) := by
        unfold Rbxl.encodeError; rw [h1]; simp only [hempty x, Bool.false_eq_true, if_false]
      rw [← this]; exact hr

/-! ## C75: the offset of the error -/

/-- The offset in the error is not less than the number of bytes that have arrived, and it is that number if the writer
fails within the first 32 bytes. -/
theorem C75_offset_partial (he : Rbxl.encodeRoot lz u it srt hash place h root = .ok b) {s : σ} {calls : List (Call ε)} {off : Nat}
    {cause : Rbxl.Fail ε} (hr : Rbxl.encodeRootTo W empty lz u it srt hash place h root s = .ok (calls, some (off, cause))) :
    (received calls).length ≤ off ∧ ((received calls).length < 32 → off = (received calls).length) := by
  obtain ⟨f, hc, hf⟩ := encodeRoot_ok he
  obtain ⟨w, k, hx, -, hw, hk⟩ := Rbxl.encodeFileTo_run W empty hf s
  unfold Rbxl.encodeRootTo at hr
  rw [hc] at hr
  have hr := hx.symm.trans hr
  simp only [Res.ok.injEq, Prod.mk.injEq] at hr
  obtain ⟨rfl, h2⟩ := hr
  have hoff : off = w.n := by
    unfold Rbxl.encodeError at h2
    split at h2
    · cases h2
    · split at h2
      · cases h2
      · cases h2; rfl
    · cases h2; rfl
  have hcount := hw.wr.count
  refine ⟨by omega, ?_⟩
  intro hlt
  rcases hk with rfl | hk
  · simp at hcount; omega
  · have := hk.length_le
    have h32 : (Rbxl.fileHeader f.version f.classCount f.instanceCount).length = 32 := by
      have h1 : (Rbxl.robloxSig ++ Rbxl.binaryMarker ++ Rbxl.binaryHeader).length = 14 := by decide +kernel
      unfold Rbxl.fileHeader
      simp only [List.length_append] at h1 ⊢
      simp [le16, le32, le64]
      omega
    omega

end

/-- The bytes received and the error of the binary encoder. -/
def seenB {ε ε' : Type} (x : Res (List (Call ε) × Option ε')) : Option (Bytes × Option ε') :=
  match x with
  | .ok (calls, err) => some (received calls, err)
  | _ => none

/-- The encoding of the example, to a limited writer. -/
def exTo (n : Nat) (empty : Nat → Bool) : Res (List (Call Nat) × Option (Nat × Rbxl.Fail Nat)) :=
  Rbxl.encodeRootTo limited empty Rbxl.LZ4.stored true Iter.id Sorter.insertion exHash true exHeap exRoot n

/-- The whole example is 517 bytes long. -/
example : (seenB (exTo 100000 fun _ => false)).map (fun x => (x.1.length, x.2)) = some (517, none) := by
  decide +kernel

/-- The writer fails after 20 bytes; the offset is right. -/
example : (seenB (exTo 20 fun _ => false)).map (fun x => (x.1.length, x.2)) = some (20, some (20, .writer 5)) := by
  decide +kernel

/-- C75: the writer fails after 100 bytes; the offset is not the number of bytes written, as the payload of each chunk
is counted twice. -/
theorem C75_offset_fails : (seenB (exTo 100 fun _ => false)).map (fun x => (x.1.length, x.2)) = some (100, some (144, .writer 5)) := by
  decide +kernel

/-- C74: if the error of the writer is an empty list of errors, no error is reported although bytes are missing. -/
theorem C74_delivers_fails : (seenB (exTo 100 fun _ => true)).map (fun x => (x.1.length, x.2)) = some (100, none) := by
  decide +kernel

end Props

import Verif.Rbxlx.DecodeFrom
import Verif.Props.XmlTreeExamples
import Verif.Props.Readers
/-!
# C77, C78: decoding the XML format from a reader that may fail; the lines of errors and warnings

`Feeds B e t b` (Verif.Spec.ByteReader): the byte reader `B` in the state `t` delivers the bytes `b`, and then `e`, which is
`io.EOF` or another error. `Yields R e s b` (Verif.Spec.Reader) is the same for any reader, which delivers its data in pieces
of any size. `decode` is the decoder as a function on byte strings, which the other theorems are about;
`decodeByteReader` and `decodeReader` are the decoder as it calls the reader.
-/
namespace Props
open Go Rbxfile Spec Rbxlx

/-! ## Readers for the examples -/

/-- A byte reader that delivers its state and then `e`. -/
def listReader {ε : Type} (e : Stop ε) : ByteReader Bytes ε where
  readByte
    | [] => ([], .inr e)
    | c :: b => (b, .inl c)

theorem listReader_feeds {ε : Type} (e : Stop ε) : ∀ b, Feeds (listReader e) e b b
  | [] => .done ⟨fun t => t = [], rfl, fun t ht => ⟨[], by rw [ht]; rfl, rfl⟩⟩
  | _ :: b => .byte rfl (listReader_feeds e b)

/-- The reader of the examples of C76 always makes progress. -/
theorem pieces_progress (k : Nat) (early : Bool) (e : Stop Nat) (s : Bytes) : ¬ Stalls (pieces k early e) 4096 100 s := by
  rintro ⟨s', h, -⟩
  have h' : piece k early e s 4096 = (s', [], none) := h
  unfold piece at h'
  by_cases hs : s = []
  · simp [hs] at h'
  · simp only [if_neg hs, Prod.mk.injEq] at h'
    have h1 := h'.2.1
    rw [List.take_eq_nil_iff] at h1
    rcases h1 with h1 | h1
    · omega
    · exact hs h1

/-! ## C77 -/

section
variable {τ ε σ : Type} {B : ByteReader τ ε} {t : τ} {b : Bytes} {e : Stop ε} {R : Reader σ ε} {s : σ} {noProgress : ε}
  (FT : FloatText) (discard : Bool)

/-- The result of `Decode` on a reader is that of the decoder on a byte string. -/
inductive SameXml {ε : Type} : Res (Heap Nat × Root Nat) → XmlResult ε → Prop
  | tree (h : Heap Nat) (root : Root Nat) : SameXml (.ok (h, root)) (.tree h root)
  | parse (x : Err) (y : DErr ε) : SameXml (.err x) (.parse y)
  | codec (x : Err) : SameXml (.err x) (.codec x)
  | panic : SameXml .panic .panic

/-- What the decoder does with the bytes. -/
theorem decodeByteReader_runOn (hf : Feeds B e t b) (fuel : Nat) : ∃ t',
    decodeByteReader B fuel FT discard t = (finishDecode FT discard ((exec e (Dec.readFrom fuel) {} b).1, (exec e (Dec.readFrom fuel) {} b).2.1), t') ∧
    Feeds B e t' (exec e (Dec.readFrom fuel) {} b).2.2 := by
  obtain ⟨t', h1, h2⟩ := Prog.run_feeds (Dec.readFrom (ε := ε) fuel {}) t b hf
  exact ⟨t', by unfold decodeByteReader; rw [h1]; rfl, h2⟩

/-- The parser accepts `b`: then the root tag is followed by any error whatever. -/
theorem decodeByteReader_ok (hf : Feeds B e t b) {root : Option Tag} {suffix : Bytes} (h : readFrom b = .ok (root, suffix)) (fuel : Nat)
    (hF : 2 * b.length + 5 ≤ fuel) :
    (decodeByteReader B fuel FT discard t).1.result = .ofCodec (codecDecode FT discard root) := by
  obtain ⟨t', h1, -⟩ := decodeByteReader_runOn FT discard hf fuel
  have h2 := Dec.readFrom_at e b fuel hF
  rw [h] at h2
  rw [h1]
  simp only [finishDecode, h2.1]

/-- The parser does not accept `b`. -/
theorem decodeByteReader_err (hf : Feeds B e t b) {x : Err} (h : readFrom b = .err x) (fuel : Nat) (hF : 2 * b.length + 5 ≤ fuel) :
    ∃ y, (decodeByteReader B fuel FT discard t).1.result = .parse y ∧ GoodErr e b y := by
  obtain ⟨t', h1, -⟩ := decodeByteReader_runOn FT discard hf fuel
  have h2 := Dec.readFrom_at e b fuel hF
  rw [h] at h2
  obtain ⟨h3, h4⟩ := h2
  obtain ⟨y, h5, h6⟩ := h4.err
  rw [h1]
  exact ⟨y, by simp only [finishDecode, h3, h5], h6⟩

/-- Decoding from a byte reader is decoding the bytes that it delivers, whatever the error `e` after them. -/
theorem C77_reads (hf : Feeds B e t b) (fuel : Nat) (hF : 2 * b.length + 5 ≤ fuel) :
    SameXml (decode FT discard b) (decodeByteReader B fuel FT discard t).1.result := by
  unfold decode
  have hg := readFrom_good b
  cases h : readFrom b with
  | panic => exact absurd h hg.1
  | err x =>
    obtain ⟨y, h1, -⟩ := decodeByteReader_err FT discard hf h fuel hF
    rw [h1]; exact .parse _ _
  | ok p =>
    obtain ⟨root, suffix⟩ := p
    rw [decodeByteReader_ok FT discard hf h fuel hF]
    simp only
    cases codecDecode FT discard root with
    | panic => exact .panic
    | err x => exact .codec x
    | ok p => exact .tree _ _

/-- Decoding from any reader, through a `bufio.Reader`, is decoding the bytes that it delivers. The reader must not return
nothing without an error 100 times in a row. -/
theorem C77_buffered (hy : Yields R e s b) (hp : ∀ s, ¬ Stalls R 4096 100 s) (fuel : Nat) (hF : 2 * b.length + 5 ≤ fuel) :
    SameXml (decode FT discard b) (decodeReader R noProgress fuel FT discard s).result :=
  C77_reads FT discard (by simpa using buffered_feeds (noProgress := noProgress) hp b.length s [] b hy (Nat.le_refl _)) fuel hF

/-- In what pieces the bytes come makes no difference to the result, to the warnings, or to the error. -/
theorem C77_pieces {σ' : Type} {R' : Reader σ' ε} {s' : σ'} {noProgress' : ε} (hy : Yields R e s b) (hy' : Yields R' e s' b)
    (hp : ∀ s, ¬ Stalls R 4096 100 s) (hp' : ∀ s, ¬ Stalls R' 4096 100 s) (hf : Feeds B e t b) (fuel : Nat) :
    decodeReader R noProgress fuel FT discard s = decodeReader R' noProgress' fuel FT discard s' ∧
    decodeReader R noProgress fuel FT discard s = (decodeByteReader B fuel FT discard t).1 := by
  obtain ⟨t1, h1, -⟩ := decodeByteReader_runOn FT discard
    (show Feeds (buffered R noProgress) e ⟨s, [], none⟩ b by simpa using buffered_feeds (noProgress := noProgress) hp b.length s [] b hy (Nat.le_refl _)) fuel
  obtain ⟨t2, h2, -⟩ := decodeByteReader_runOn FT discard
    (show Feeds (buffered R' noProgress') e ⟨s', [], none⟩ b by simpa using buffered_feeds (noProgress := noProgress') hp' b.length s' [] b hy' (Nat.le_refl _)) fuel
  obtain ⟨t3, h3, -⟩ := decodeByteReader_runOn FT discard hf fuel
  unfold decodeReader
  rw [h1, h2, h3]
  exact ⟨rfl, rfl⟩

/-- An error of the reader results in an error, unless the bytes before it are a whole document. Missing: that this error is
the one of the reader (`C77_lost_fails`), and that the error is reported if it comes after the root tag
(`C77_suffix_fails`). -/
theorem C77_broken_partial {x : ε} (hf : Feeds B (.fail x) t b) (fuel : Nat) (hF : 2 * b.length + 5 ≤ fuel) :
    (∃ y, (decodeByteReader B fuel FT discard t).1.result = .parse y) ∨
    ∃ root suffix, readFrom b = .ok (root, suffix) ∧ (decodeByteReader B fuel FT discard t).1.result = .ofCodec (codecDecode FT discard root) := by
  have hg := readFrom_good b
  cases h : readFrom b with
  | panic => exact absurd h hg.1
  | err y => obtain ⟨z, h1, -⟩ := decodeByteReader_err FT discard hf h fuel hF; exact .inl ⟨z, h1⟩
  | ok p => exact .inr ⟨p.1, p.2, rfl, decodeByteReader_ok FT discard hf h fuel hF⟩

/-! ## C78 -/

/-- A line number of the text: that of a byte of it or of its end. -/
def IsLine (b : Bytes) (l : Int) : Prop := 1 ≤ l ∧ l ≤ 1 + (b.count 10#8 : Int)

theorem LineOf.isLine {l : Int} (h : LineOf b l) : IsLine b l := by
  obtain ⟨p, hp, rfl⟩ := h
  have := hp.sublist.count_le 10#8
  exact ⟨by omega, by omega⟩

/-- The line of a warning is a line of the input. -/
theorem C78_warnings (hf : Feeds B e t b) (fuel : Nat) (hF : 2 * b.length + 5 ≤ fuel) :
    ∀ w ∈ (decodeByteReader B fuel FT discard t).1.warns, IsLine b w.2 := by
  obtain ⟨t', h1, -⟩ := decodeByteReader_runOn FT discard hf fuel
  have h2 := Dec.readFrom_at e b fuel hF
  rw [h1]
  have hg := readFrom_good b
  intro w hw
  cases h : readFrom b with
  | panic => exact absurd h hg.1
  | err x => rw [h] at h2; exact LineOf.isLine (h2.2.warns w hw)
  | ok p => rw [h] at h2; exact LineOf.isLine (h2.2 w hw)

/-- An error of the parser is the error of the reader, or an error with a line of the input. -/
theorem C78_errors (hf : Feeds B e t b) (fuel : Nat) (hF : 2 * b.length + 5 ≤ fuel) {y : DErr ε}
    (h : (decodeByteReader B fuel FT discard t).1.result = .parse y) :
    y = .stop e ∨ ∃ l, IsLine b l ∧ (y = .unmatched l ∨ ∃ msg, y = .syntax msg l) := by
  have hg := readFrom_good b
  cases hr : readFrom b with
  | panic => exact absurd hr hg.1
  | ok p =>
    rw [decodeByteReader_ok FT discard hf hr fuel hF] at h
    cases hc : codecDecode FT discard p.1 with
    | ok q => rw [hc] at h; cases h
    | err q => rw [hc] at h; cases h
    | panic => rw [hc] at h; cases h
  | err x =>
    obtain ⟨z, h1, h2⟩ := decodeByteReader_err FT discard hf hr fuel hF
    rw [h1] at h
    cases h
    cases y with
    | stop w => left; exact congrArg _ h2
    | «syntax» msg l => exact .inr ⟨l, LineOf.isLine h2, .inr ⟨msg, rfl⟩⟩
    | unmatched l => exact .inr ⟨l, LineOf.isLine h2, .inl rfl⟩
    | fuel => exact h2.elim

theorem listReader_run (e : Stop ε) (b : Bytes) (fuel : Nat) : decodeByteReader (listReader e) fuel FT discard b =
    (finishDecode FT discard ((Dec.readFrom fuel {}).runOn e b).1, ((Dec.readFrom fuel {}).runOn e b).2) := by
  have key : ∀ {α : Type} (p : Prog ε α) (b : Bytes), p.run (listReader e) b = p.runOn e b := by
    intro α p
    induction p with
    | ret a => intro b; rfl
    | read k ih =>
      intro b
      cases b with
      | nil => exact ih (.inr e) []
      | cons c b => exact ih (.inl c) b
  unfold decodeByteReader
  rw [key]

/-- If the decoder has not read everything, then its result, warnings and error are those for what it has read, whatever
follows. (`c` is what has been read, `r` what has not.) -/
theorem C78_local (e e' : Stop ε) (fuel : Nat) (c r r' : Bytes) (hr : r ≠ []) {o : XmlOut ε}
    (h : decodeByteReader (listReader e) fuel FT discard (c ++ r) = (o, r)) :
    decodeByteReader (listReader e') fuel FT discard (c ++ r') = (o, r') := by
  rw [listReader_run] at h ⊢
  simp only [Prod.mk.injEq] at h
  rw [Prog.runOn_local e _ c r h.2 hr e' r', h.1]

/-- The line of an error that is reported before the end of the input is a line of what has been read. -/
theorem C78_before (e : Stop ε) (fuel : Nat) (c r : Bytes) (hr : r ≠ []) (hF : 2 * c.length + 5 ≤ fuel) {ws : List (String × Int)}
    {msg : String} {l : Int} (h : decodeByteReader (listReader e) fuel FT discard (c ++ r) = (⟨ws, .parse (.syntax msg l)⟩, r)) : IsLine c l := by
  have h1 := C78_local FT discard e e fuel c r [] hr h
  rw [List.append_nil] at h1
  rcases C78_errors FT discard (listReader_feeds e c) fuel hF (by rw [h1]) with h2 | ⟨l', h2, h3 | ⟨m, h3⟩⟩
  · cases h2
  · cases h3
  · cases h3; exact h2

end

/-! ## Concrete cases -/

/-- Three lines, with an error in the third. -/
def exBadXml : Bytes := str "<roblox version=\"4\">\n<Item class=\"A\">\n<x y=1></x>\n</Item></roblox>"

/-- The error is reported for the third line, and the rest is not read. -/
theorem exBadXml_decoded : decodeByteReader (listReader (ε := Nat) .eof) 200 goFloat false exBadXml =
    (⟨[], .parse (.syntax "unquoted or missing attribute value in element" 3)⟩, str "></x>\n</Item></roblox>") := by decide +kernel

/-- The hypotheses of C78_before, and so those of C78_local, are met. -/
example : IsLine (str "<roblox version=\"4\">\n<Item class=\"A\">\n<x y=1") 3 :=
  C78_before goFloat false (.eof (ε := Nat)) 200 (str "<roblox version=\"4\">\n<Item class=\"A\">\n<x y=1") (str "></x>\n</Item></roblox>")
    (by decide) (by decide) exBadXml_decoded

/-- A tag that is ignored. -/
def exWarnXml : Bytes := str "<roblox version=\"4\">\n<Item class=\"A\">\n</Item>\n<a =b></a></roblox>"

/-- A warning for the fourth line. -/
example : (decodeByteReader (listReader (ε := Nat) .eof) 300 goFloat false exWarnXml).1.warns = [("expected attribute name in element", 4)] := by decide +kernel

/-- The hypotheses of C77_pieces are met: pieces of three bytes, the last of which comes with the end, pieces of a
thousand bytes, and single bytes. -/
example : decodeReader (pieces 2 true .eof) 9 300 goFloat false exWarnXml = decodeReader (pieces 999 false .eof) 8 300 goFloat false exWarnXml ∧
    decodeReader (pieces 2 true .eof) 9 300 goFloat false exWarnXml = (decodeByteReader (listReader .eof) 300 goFloat false exWarnXml).1 :=
  C77_pieces goFloat false (pieces_yields 2 true .eof exWarnXml) (pieces_yields 999 false .eof exWarnXml) (pieces_progress _ _ _)
    (pieces_progress _ _ _) (listReader_feeds .eof exWarnXml) 300

/-- The hypotheses of C77_reads and of C77_buffered are met. -/
example := C77_reads goFloat false (b := exWarnXml) (listReader_feeds (ε := Nat) .eof exWarnXml) 300 (by decide)
example := C77_buffered goFloat false (noProgress := 9) (pieces_yields 2 true .eof exWarnXml) (pieces_progress _ _ _) 300 (by decide)

/-- The error of the reader is reported if it comes within a start tag (C77_broken_partial). -/
example : (decodeByteReader (listReader (.fail 7)) 200 goFloat false (str "<roblox ver")).1.result = .parse (.stop (.fail 7)) := by decide +kernel

/-- C77: an error of the reader after the text of a tag or between tags is lost: what is reported is a tag without an end. -/
theorem C77_lost_fails : Feeds (listReader (.fail 7)) (.fail 7) (str "<roblox version=\"4\">x") (str "<roblox version=\"4\">x") ∧
    (decodeByteReader (listReader (.fail 7)) 200 goFloat false (str "<roblox version=\"4\">x")).1.result = .parse (.unmatched 1) :=
  ⟨listReader_feeds _ _, by decide +kernel⟩

/-- C77: an error of the reader after the root tag is not reported. -/
theorem C77_suffix_fails : Feeds (listReader (.fail 7)) (.fail 7) (str "<roblox version=\"4\"></roblox>") (str "<roblox version=\"4\"></roblox>") ∧
    (decodeByteReader (listReader (.fail 7)) 200 goFloat false (str "<roblox version=\"4\"></roblox>")).1.result = .tree [] {} := by
  refine ⟨listReader_feeds _ _, ?_⟩
  rw [decodeByteReader_ok goFloat false (listReader_feeds _ _)
    (show readFrom (str "<roblox version=\"4\"></roblox>") = .ok (some (⟨{ startName := str "roblox", attr := [(str "version", str "4")], endName := str "roblox" }, []⟩), []) by decide +kernel) 200 (by decide)]
  decide +kernel

/-- A reader that returns nothing as often as its state says, and then the end. -/
def stalling : Reader Nat Nat where
  read
    | 0, _ => (0, [], some .eof)
    | k + 1, _ => (k, [], none)
  read_ok := by intro s n; cases s <;> exact Nat.zero_le _

theorem stalling_yields : ∀ k, Yields stalling .eof k []
  | 0 => .mk (fun n _ h => by cases h) (fun n _ h => by cases h) (fun n _ x h => by
      cases h
      exact ⟨rfl, rfl, fun k => k = 0, rfl, fun k hk n _ => ⟨0, by subst hk; rfl, rfl⟩⟩)
  | k + 1 => .mk (fun n _ _ => List.prefix_rfl) (fun n _ _ => stalling_yields k) (fun n _ x h => by cases h)

/-- C77: a reader that returns nothing 100 times in a row is given up, although it would go on. -/
theorem C77_stall_fails : Yields stalling .eof 100 [] ∧
    (decodeReader stalling 9 5 goFloat false 100).result = .parse (.stop (.fail 9)) ∧
    (decodeReader stalling 9 5 goFloat false 99).result = .parse (.stop .eof) :=
  ⟨stalling_yields 100, by decide +kernel, by decide +kernel⟩

end Props

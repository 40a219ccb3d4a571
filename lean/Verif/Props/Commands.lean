import Verif.Cmd.Main
import Verif.Props.Framing
import Verif.Props.NoPanic
/-!
# C87: the commands
-/
namespace Props
open Go Rbxfile Rbxl Cmd

/-- The name of the output, if it is a file. -/
abbrev outputOf (args : List Bytes) : Option Bytes := fileArg args 1

/-- The name of the input, if it is a file. -/
abbrev inputOf (args : List Bytes) : Option Bytes := fileArg args 0

/-- An argument that is missing, or "-", stands for standard input or output; any other one is the name of a file. -/
theorem C87_names (args : List Bytes) (i : Nat) :
    (fileArg args i = none ↔ args.length ≤ i ∨ args[i]? = some (str "-")) ∧
    ∀ name, fileArg args i = some name ↔ args[i]? = some name ∧ name ≠ str "-" := by
  unfold fileArg
  cases h : args[i]? with
  | none =>
    have := List.getElem?_eq_none_iff.1 h
    simp [this]
  | some a =>
    have hl : ¬ args.length ≤ i := by
      intro hl
      rw [List.getElem?_eq_none_iff.2 hl] at h
      cases h
    by_cases ha : a = str "-"
    · simp [ha]
    · simp only [ne_eq, ha, not_false_eq_true, if_true, Option.some.injEq, hl, false_or, reduceCtorEq]
      refine ⟨trivial, fun name => ⟨?_, fun h => h.1⟩⟩
      rintro rfl
      exact ⟨rfl, ha⟩

/-- What a command leaves behind, when it read `inp`. -/
structure Leaves (os : OS) (w : World) (d : Done) (out : Option Bytes) (w' : World) : Prop where
  /-- the result is in the output -/
  output : match out with
    | none => w'.stdout = w.stdout ++ d.out
    | some name => w'.files.get? name = some d.out ∧ w'.stdout = w.stdout
  /-- other files are as before -/
  others : ∀ name, out ≠ some name → w'.files.get? name = w.files.get? name
  /-- the reports are on standard error, and nothing else but an error of Sync -/
  reports : w'.stderr = w.stderr ++ d.lines ++ (match out.bind os.syncErr with
    | none => []
    | some m => [str "sync output: " ++ m])

/-- `run` when both files can be used: `inp` is what is read. -/
theorem run_ok {os : OS} {tool : Bytes → Res Done} {args : List Bytes} {w : World}
    (hi : ∀ name, inputOf args = some name → os.openErr w name = none)
    (ho : ∀ name, outputOf args = some name → os.createErr w name = none) :
    run os tool args w =
      match tool ((openOutput os (outputOf args) w).1.read (inputOf args)) with
      | .panic => .panic
      | .err e => .err e
      | .ok d => .ok (World.sync os { (openOutput os (outputOf args) w).1.write d.out (outputOf args) with
          stderr := ((openOutput os (outputOf args) w).1.write d.out (outputOf args)).stderr ++ d.lines } (outputOf args)) := by
  have h2 : (openOutput os (outputOf args) w).2 = true := by
    unfold openOutput
    cases h : outputOf args with
    | none => rfl
    | some name => simp only [ho name h]
  unfold run
  generalize hx : openOutput os (outputOf args) w = x at h2
  obtain ⟨w1, ok⟩ := x
  simp only at h2
  subst h2
  cases h : inputOf args with
  | none => simp only [inputOf] at h; simp only [h, hx]; rfl
  | some name => have := hi name h; simp only [inputOf] at h; simp only [h, this, hx]; rfl

/-- C87: if the input can be opened and the output, a different file, can be created, then the command works on the contents of the
input and leaves its result in the output, its reports on standard error, and everything else alone. It panics only if `tool` does. -/
theorem C87_works (os : OS) (tool : Bytes → Res Done) (args : List Bytes) (w : World)
    (hi : ∀ name, inputOf args = some name → os.openErr w name = none)
    (ho : ∀ name, outputOf args = some name → os.createErr w name = none)
    (hne : ∀ name, inputOf args = some name → outputOf args ≠ some name) :
    ∃ b, (match inputOf args with
        | none => b = w.stdin
        | some name => w.files.get? name = some b) ∧
      match tool b with
      | .ok d => ∃ w', run os tool args w = .ok w' ∧ Leaves os w d (outputOf args) w'
      | .err e => run os tool args w = .err e
      | .panic => run os tool args w = .panic := by
  have hr : (openOutput os (outputOf args) w).1.read (inputOf args) = w.read (inputOf args) := by
    unfold openOutput
    cases h : outputOf args with
    | none => rfl
    | some name =>
      simp only [ho name h]
      cases h' : inputOf args with
      | none => rfl
      | some name' =>
        have : name' ≠ name := by
          rintro rfl
          exact hne _ h' h
        simp only [World.read]
        rw [Map.get?_set_ne _ _ this]
  refine ⟨w.read (inputOf args), ?_, ?_⟩
  · cases h : inputOf args with
    | none => rfl
    | some name =>
      have := os.missing w name (hi name h)
      obtain ⟨b, hb⟩ := Option.isSome_iff_exists.1 this
      simp only [World.read, hb, Option.getD_some]
  · rw [run_ok hi ho, hr]
    rcases tool (w.read (inputOf args)) with d | e | _
    · refine ⟨_, rfl, ?_⟩
      unfold openOutput
      cases h : outputOf args with
      | none =>
        constructor
        · rfl
        · intro name _; rfl
        · simp [World.sync, World.write]
      | some name =>
        simp only [ho name h]
        cases hs : os.syncErr name with
        | none =>
          constructor
          · simp only [World.sync, World.write, hs]
            exact ⟨Map.get?_set_self _ _ _, trivial⟩
          · intro name' hn
            have : name' ≠ name := by rintro rfl; exact hn rfl
            simp only [World.sync, World.write, hs]
            rw [Map.get?_set_ne _ _ this, Map.get?_set_ne _ _ this]
          · simp [World.sync, World.write, hs]
        | some m =>
          constructor
          · simp only [World.sync, World.write, hs, World.line]
            exact ⟨Map.get?_set_self _ _ _, trivial⟩
          · intro name' hn
            have : name' ≠ name := by rintro rfl; exact hn rfl
            simp only [World.sync, World.write, hs, World.line]
            rw [Map.get?_set_ne _ _ this, Map.get?_set_ne _ _ this]
          · simp [World.sync, World.write, hs, World.line]
    · rfl
    · rfl

/-- C87: if the input cannot be opened, or the output cannot be created, then the command says so on standard error and does nothing
else: in particular, the output is not created or emptied if the input cannot be opened. -/
theorem C87_refused (os : OS) (tool : Bytes → Res Done) (args : List Bytes) (w : World) :
    (∀ name m, inputOf args = some name → os.openErr w name = some m →
      run os tool args w = .ok { w with stderr := w.stderr ++ [str "open input: " ++ m] }) ∧
    ((∀ name, inputOf args = some name → os.openErr w name = none) →
      ∀ name m, outputOf args = some name → os.createErr w name = some m →
      run os tool args w = .ok { w with stderr := w.stderr ++ [str "create output: " ++ m] }) := by
  constructor
  · intro name m h h'
    simp only [inputOf] at h
    simp only [run, h, h', World.line]
  · intro hi name m h h'
    have h2 : openOutput os (fileArg args 1) w = (w.line (str "create output: " ++ m), false) := by
      simp only [outputOf] at h
      simp only [openOutput, h, h']
    unfold run
    cases hn : inputOf args with
    | none => simp only [inputOf] at hn; simp only [hn, h2]; rfl
    | some n => have := hi n hn; simp only [inputOf] at hn; simp only [hn, this, h2]; rfl

/-- C87: rbxfile-dcomp writes the decompressed file for every well-framed file. Its only report is a warning if the reserved
bytes of the header are not zero. (By C09, what it writes is well-framed, uncompressed and decodes as the input does.) -/
theorem C87_dcomp (T : Texts) (lz : LZ4) (hlz : lz.Lossless) (cc ic : BitVec 32) (res : Bytes) (h : res.length = 8) (rest : Bytes)
    (raws : List Raw) (trailing : Bytes) (hf : Frames lz rest raws trailing) :
    dcomp T lz (binaryStart cc ic res ++ rest) =
      .ok ⟨binaryStart cc ic (List.replicate 8 0#8) ++ raws.flatMap (fun r => plainFrame r.sig r.payload) ++ trailing,
        if res = List.replicate 8 0#8 then [] else [str "warning: " ++ T.warns [.reserve res] []]⟩ := by
  unfold dcomp
  rw [C09_decompress lz hlz false cc ic res h rest raws trailing hf]
  by_cases hr : res = List.replicate 8 0#8
  · simp [hr, Texts.warn, report]
  · simp only [if_neg hr]
    rfl

/-- C87: what is reported. A warning is reported with its message. An error is reported, but not with its message: the message that
follows "error: " is that of the warning. -/
theorem C87_reports_partial (what : Bytes) (warn err : Option Bytes) :
    (∀ m, warn = some m → what ++ (str "warning: " ++ m) ∈ report what warn err) ∧
    (err ≠ none → ∃ m, what ++ (str "error: " ++ m) ∈ report what warn err) ∧
    (warn = none → err = none → report what warn err = []) := by
  refine ⟨?_, ?_, ?_⟩
  · rintro m rfl
    simp [report]
  · intro h
    obtain ⟨e, rfl⟩ := Option.ne_none_iff_exists'.1 h
    exact ⟨warn.getD (str "%!w(<nil>)"), by simp [report]⟩
  · rintro rfl rfl
    rfl

/-- The full C87 fails: no message of an error is ever reported. What rbxfile-dcomp says of a file that it cannot decompress is the
same for all messages of errors. -/
theorem C87_error_fails (T : Texts) (err : Err → Bytes) (lz : LZ4) (b : Bytes) :
    dcomp T lz b = dcomp { T with err := err } lz b ∧
    (∀ e, decompress lz false b = ([], .err e) → dcomp T lz b = .ok ⟨[], [str "error: %!w(<nil>)"]⟩) := by
  constructor
  · unfold dcomp
    rcases decompress lz false b with ⟨ws, _ | _ | _⟩ <;> rfl
  · intro e h
    unfold dcomp
    rw [h]
    have : str "error: " ++ str "%!w(<nil>)" = str "error: %!w(<nil>)" := by decide
    simp [Texts.warn, report, this]

/-- An empty file is such a file. -/
theorem decompress_empty (lz : LZ4) : ∃ e, decompress lz false [] = ([], .err e) := ⟨_, rfl⟩

/-- The full C87 fails: if the output is the input, then the file is emptied, whatever it contained. -/
theorem C87_in_place_fails (T : Texts) (lz : LZ4) (os : OS) (w : World) (name : Bytes) (hn : name ≠ str "-")
    (hi : os.openErr w name = none) (ho : os.createErr w name = none) :
    ∃ w', run os (dcomp T lz) [name, name] w = .ok w' ∧ w'.files.get? name = some [] := by
  have h0 : inputOf [name, name] = some name := by simp [inputOf, fileArg, hn]
  have h1 : outputOf [name, name] = some name := by simp [outputOf, fileArg, hn]
  rw [run_ok (by intro n h; rw [h0] at h; cases h; exact hi) (by intro n h; rw [h1] at h; cases h; exact ho)]
  have hr : (openOutput os (outputOf [name, name]) w).1.read (inputOf [name, name]) = [] := by
    simp only [h0, h1, openOutput, ho, World.read]
    rw [Map.get?_set_self]
    rfl
  obtain ⟨e, he⟩ := decompress_empty lz
  rw [hr, (C87_error_fails T T.err lz []).2 e he]
  refine ⟨_, rfl, ?_⟩
  simp only [h1, openOutput, ho, World.write, World.sync]
  cases os.syncErr name with
  | none => exact Map.get?_set_self _ _ _
  | some m => exact Map.get?_set_self _ _ _

/-- The full C87 fails: rbxfile-stat writes statistics for a file that it cannot decode, as if it contained nothing. -/
theorem C87_stat_fails (T : Texts) (lz : LZ4) (slack : Bytes → Nat) (quat : Quat) (it : Iter) (fuel : Nat) (json : AllStats → Bytes)
    (xml : Bytes → Option Bytes × (Cmd.Stats ⊕ Bytes)) (b : Bytes) (e : Err) (h : (decodeRoot lz slack quat false b).result = .err e) :
    ∃ lines, stat T lz slack quat it fuel json xml b = .ok ⟨json ⟨(decodeRoot lz slack quat false b).stats, {}⟩, lines⟩ := by
  unfold stat
  simp only [h]
  exact ⟨_, rfl⟩

/-! ### Examples -/

/-- A system with the given files, all of which can be opened, created and synced. -/
def plainOS : OS where
  openErr w name := if (w.files.get? name).isSome then none else some (str "no such file")
  createErr _ _ := none
  syncErr _ := none
  missing w name h := by
    by_cases hs : (w.files.get? name).isSome = true
    · exact hs
    · rw [if_neg hs] at h; cases h

/-- The texts of the examples. -/
def plainTexts : Texts := ⟨fun _ _ => str "W", fun _ => str "E"⟩

/-- Decompressing `a` to `b`; `c` is another file. -/
example : ∃ w', run plainOS (dcomp plainTexts LZ4.stored) [str "a", str "b"]
      ⟨[(str "a", fileOf 0 0 endFrame), (str "b", [1, 2]), (str "c", [3])], [], [], []⟩ = .ok w' ∧
    w'.files = [(str "a", fileOf 0 0 endFrame), (str "b", fileOf 0 0 endFrame), (str "c", [3])] ∧ w'.stderr = [] :=
  ⟨_, rfl, by decide +kernel, by decide +kernel⟩

/-- The conditions of `C87_works` hold for it. -/
example : ∃ b, Map.get? [(str "a", fileOf 0 0 endFrame), (str "b", [1, 2])] (str "a") = some b ∧
    ∃ d w', dcomp plainTexts LZ4.stored b = .ok d ∧ Leaves plainOS ⟨[(str "a", fileOf 0 0 endFrame), (str "b", [1, 2])], [], [], []⟩ d
      (some (str "b")) w' := by
  obtain ⟨b, h1, h2⟩ := C87_works plainOS (dcomp plainTexts LZ4.stored) [str "a", str "b"]
    ⟨[(str "a", fileOf 0 0 endFrame), (str "b", [1, 2])], [], [], []⟩ (by rintro name ⟨⟩; rfl) (by intro name _; rfl)
    (by rintro name ⟨⟩; decide)
  have hb : b = fileOf 0 0 endFrame := (Option.some.inj h1).symm
  subst hb
  obtain ⟨w', -, h3⟩ := h2
  exact ⟨_, rfl, _, w', rfl, h3⟩

/-- A file that cannot be opened. -/
example : run plainOS (dcomp plainTexts LZ4.stored) [str "x", str "b"] ⟨[(str "b", [1, 2])], [], [], []⟩ =
    .ok ⟨[(str "b", [1, 2])], [], [], [str "open input: no such file"]⟩ := rfl

end Props

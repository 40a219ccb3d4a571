import Verif.Cmd.Stat
import Verif.Rbxl.Dump
import Verif.Rbxl.CodecDecode
/-!
# The commands rbxfile-dcomp, rbxfile-dump and rbxfile-stat

The `main` functions (cmd/rbxfile-dcomp/main.go:24-64, cmd/rbxfile-dump/main.go:23-63, cmd/rbxfile-stat/main.go:184-234) after
`flag.Parse`: `args` is `flag.Args()`. Files are identified by their names: two names never denote the same file. The operating
system decides which files can be opened, created and synced, and what the messages are; reading and writing of open files does
not fail (see C73 to C77 for readers and writers that do). The commands read all of the input before they write: `Decompress`,
`Dump` and `Decode` decode the whole file first.
-/
namespace Cmd
open Go Rbxfile Rbxl

/-- The files, what standard input provides, and what has been written to standard output and standard error. -/
structure World where
  files : Map Bytes Bytes
  stdin : Bytes
  stdout : Bytes := []
  /-- the lines written to standard error -/
  stderr : List Bytes := []

/-- The operating system: the messages of the errors of `os.Open`, `os.Create` and `File.Sync`. A file that does not exist cannot
be opened. -/
structure OS where
  openErr : World → Bytes → Option Bytes
  createErr : World → Bytes → Option Bytes
  syncErr : Bytes → Option Bytes
  missing : ∀ w name, openErr w name = none → (w.files.get? name).isSome

/-- A line on standard error. -/
def World.line (w : World) (l : Bytes) : World := { w with stderr := w.stderr ++ [l] }

/-- The argument at position `i`, unless it is missing or "-" (cmd/rbxfile-dcomp/main.go:31, 40). -/
def fileArg (args : List Bytes) (i : Nat) : Option Bytes :=
  match args[i]? with
  | none => none
  | some a => if a ≠ str "-" then some a else none

/-- What `input` reads (cmd/rbxfile-dcomp/main.go:25, 37). -/
def World.read (w : World) : Option Bytes → Bytes
  | none => w.stdin
  | some name => (w.files.get? name).getD []

/-- Writing to `output` (cmd/rbxfile-dcomp/main.go:26, 54). A file is empty when it has been created. -/
def World.write (w : World) (b : Bytes) : Option Bytes → World
  | none => { w with stdout := w.stdout ++ b }
  | some name => { w with files := w.files.set name b }

/-- The deferred call of `Sync` (cmd/rbxfile-dcomp/main.go:47-53). -/
def World.sync (os : OS) (w : World) : Option Bytes → World
  | none => w
  | some name => match os.syncErr name with
    | none => w
    | some m => w.line (str "sync output: " ++ m)

/-- What a command does with its input: what it writes to its output, and the lines for standard error. -/
structure Done where
  out : Bytes
  lines : List Bytes

/-- The opened input and output (cmd/rbxfile-dcomp/main.go:31-54): `os.Create` empties the output. -/
def openOutput (os : OS) (out : Option Bytes) (w : World) : World × Bool :=
  match out with
  | none => (w, true)
  | some name => match os.createErr w name with
    | some m => (w.line (str "create output: " ++ m), false)
    | none => ({ w with files := w.files.set name [] }, true)

/-- `main` (cmd/rbxfile-dcomp/main.go:24-64) of a command that does `tool`. -/
def run (os : OS) (tool : Bytes → Res Done) (args : List Bytes) (w : World) : Res World :=
  let finish (inp : Option Bytes) : Res World :=
    let out := fileArg args 1
    match openOutput os out w with
    | (w, false) => .ok w
    | (w, true) => match tool (w.read inp) with
      | .panic => .panic
      | .err e => .err e
      | .ok d =>
        let w := w.write d.out out
        .ok ({ w with stderr := w.stderr ++ d.lines }.sync os out)
  match fileArg args 0 with
  | none => finish none
  | some name => match os.openErr w name with
    | some m => .ok (w.line (str "open input: " ++ m))
    | none => finish (some name)

/-- The reports (cmd/rbxfile-dcomp/main.go:57-63, cmd/rbxfile-stat/main.go:220-225): `fmt.Errorf("error: %w", warn)` is written for
an error, with the warning, which is formatted as `%!w(<nil>)` if it is nil. `what` is empty or "decode ". -/
def report (what : Bytes) (warn err : Option Bytes) : List Bytes :=
  (match warn with
    | some m => [what ++ (str "warning: " ++ m)]
    | none => []) ++
  (match err with
    | some _ => [what ++ (str "error: " ++ warn.getD (str "%!w(<nil>)"))]
    | none => [])

/-- The messages of warnings and errors. -/
structure Texts where
  warns : List Warn → List CodecWarn → Bytes
  err : Err → Bytes

/-- The warning with its message; it is nil if there are no warnings (`Union`, errors/errors.go:72-89). -/
def Texts.warn (T : Texts) (ws : List Warn) (cs : List CodecWarn) : Option Bytes :=
  if ws = [] ∧ cs = [] then none else some (T.warns ws cs)

/-- What rbxfile-dcomp does with its input (cmd/rbxfile-dcomp/main.go:57-63). -/
def dcomp (T : Texts) (lz : LZ4) (b : Bytes) : Res Done :=
  match decompress lz false b with
  | (_, .panic) => .panic
  | (ws, .err e) => .ok ⟨[], report [] (T.warn ws []) (some (T.err e))⟩
  | (ws, .ok out) => .ok ⟨out, report [] (T.warn ws []) none⟩

/-- What rbxfile-dump does with its input (cmd/rbxfile-dump/main.go:56-62). -/
def dump (T : Texts) (D : DumpText) (lz : LZ4) (slack : Bytes → Nat) (b : Bytes) : Res Done :=
  match dumpFile D lz slack false b with
  | (_, .panic) => .panic
  | (ws, .err e) => .ok ⟨[], report [] (T.warn ws []) (some (T.err e))⟩
  | (ws, .ok out) => .ok ⟨out, report [] (T.warn ws []) none⟩

/-- The statistics that rbxfile-stat writes: those of the decoder, and those of `Fill`, which sets nothing for a nil root
(cmd/rbxfile-stat/main.go:109-112). -/
structure AllStats where
  format : Rbxl.Stats
  tree : Stats

/-- What rbxfile-stat does with its input (cmd/rbxfile-stat/main.go:218-233). `json` is `Encoder.Encode` of encoding/json; `xml` is
`Decoder.Decode` of rbxlx followed by `Fill`, for files in the XML format: the warning, and the statistics or the message of the
error. -/
def stat (T : Texts) (lz : LZ4) (slack : Bytes → Nat) (quat : Quat) (it : Iter) (fuel : Nat) (json : AllStats → Bytes)
    (xml : Bytes → Option Bytes × (Stats ⊕ Bytes)) (b : Bytes) : Res Done :=
  let o := decodeRoot lz slack quat false b
  match o.result with
  | .panic => .panic
  | .err e => .ok ⟨json ⟨o.stats, {}⟩, report (str "decode ") (T.warn o.warns o.codecWarns) (some (T.err e))⟩
  | .ok (.tree h root) => match fill it h fuel root with
    | .panic => .panic
    | .err e => .err e
    | .ok s => .ok ⟨json ⟨o.stats, s⟩, report (str "decode ") (T.warn o.warns o.codecWarns) none⟩
  | .ok (.xml c) => match xml c with
    | (w, .inl s) => .ok ⟨json ⟨o.stats, s⟩, report (str "decode ") w none⟩
    | (w, .inr e) => .ok ⟨json ⟨o.stats, {}⟩, report (str "decode ") w (some e)⟩

end Cmd

import Verif.Go.Basic
/-!
# Lists of errors (errors/errors.go)

`New`, `Unwrap`, `Is` and `As` forward to the standard library and are not modelled.
-/
namespace Errors
open Go

/-- A Go `error` other than nil: an `Errors` list (whose elements may be nil) or any other error,
known by its message. -/
inductive E where
  | leaf (msg : Bytes)
  | errs (l : List (Option E))
  deriving Repr, Inhabited

/-- `Errors.Append` (errors/errors.go:51-58). -/
def append (errs : List (Option E)) (args : List (Option E)) : List (Option E) :=
  args.foldl (fun errs err => if err.isSome then errs ++ [err] else errs) errs

/-- `Errors.Return` (errors/errors.go:62-67). -/
def ret (errs : List (Option E)) : Option E := if errs.length = 0 then none else some (.errs errs)

/-- The type switch of `Union` (errors/errors.go:75-86). -/
def unionStep (e : List (Option E)) : Option E → List (Option E)
  | none => e
  | some (.errs l) => l.foldl (fun e err => if err.isSome then e ++ [err] else e) e
  | some err => e ++ [some err]

/-- `Union` (errors/errors.go:72-89). -/
def union (args : List (Option E)) : Option E := ret (args.foldl unionStep [])

/-- `strings.ReplaceAll(msg, "\n", "\n\t")`. -/
def indent (msg : Bytes) : Bytes := msg.flatMap fun (c : Byte) => if c = 10#8 then [10#8, 9#8] else [c]

mutual
/-- `err.Error()`; for `Errors` it is errors/errors.go:30-47. Calling `Error` on a nil error
panics. -/
def text : E → Res Bytes
  | .leaf msg => .ok msg
  | .errs [] => .ok (str "no errors")
  | .errs [none] => .panic
  | .errs [some e] => text e
  | .errs l => do
    let rest ← texts l
    pure (str "multiple errors:" ++ rest)
/-- The loop of `Errors.Error`. -/
def texts : List (Option E) → Res Bytes
  | [] => .ok []
  | none :: _ => .panic
  | some e :: l => do
    let msg ← text e
    let rest ← texts l
    pure (str "\n\t" ++ indent msg ++ rest)
end

end Errors

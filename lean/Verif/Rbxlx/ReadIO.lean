import Verif.Go.Bufio
import Verif.Rbxlx.Document
/-!
# Reading XML documents from a byte reader (rbxlx/document.go:231-978)

The decoder as it is written: byte by byte, with `getc`, `ungetc`, the error `d.err` that sticks, the line number, the
stack of the lines of the tags, and the warnings. (`Verif.Rbxlx.Document` has the decoder as a function on byte
strings; `Verif.Rbxlx.ReadSim` shows that they do the same.)

Not modelled: the count `d.n`, which is not used, and the detection of `Prefix`, `Indent` and `NoIndent`, which the
codec does not use (`readSpace` is `space`). The argument `F` of the loops bounds the number of steps; when it is
exhausted, the error is `fuel`, which is not an error of the program.
-/
namespace Rbxlx
open Go Spec Rbxfile

/-- `d.err`: an error of the reader, or a `syntaxError` (rbxlx/document.go:215-229); `unmatched` is that with an empty
message. -/
inductive DErr (ε : Type) where
  | stop (x : Stop ε)
  | syntax (msg : String) (line : Int)
  | unmatched (line : Int)
  | fuel
  deriving DecidableEq

/-- `decoder` (rbxlx/document.go:231-240) without the reader. The top of `nextByte` and that of `tagstack` come first.
`warns` are the warnings of the document. -/
structure Dec (ε : Type) where
  buf : Bytes := []
  next : Bytes := []
  tagstack : List Int := []
  err : Option (DErr ε) := none
  line : Int := 1
  warns : List (String × Int) := []

/-- A method of the decoder. -/
def D (ε α : Type) := Dec ε → Prog ε (α × Dec ε)

namespace D
variable {ε α β : Type}

/-- Nothing is done. -/
def pure (a : α) : D ε α := fun d => .ret (a, d)
/-- One method after the other. -/
def bind (m : D ε α) (f : α → D ε β) : D ε β := fun d => (m d).bind fun x => f x.1 x.2

instance : Monad (D ε) where
  pure := pure
  bind := bind

/-- The fields are read. -/
def get : D ε (Dec ε) := fun d => .ret (d, d)
/-- The fields are changed. -/
def modify (f : Dec ε → Dec ε) : D ε Unit := fun d => .ret ((), f d)

end D

namespace Dec
variable {ε : Type}

/-- Whether there is an error. -/
def failed : D ε Bool := do return (← D.get).err.isSome

/-- `d.err = d.syntaxError(msg)` (rbxlx/document.go:242-245). -/
def syntaxError (msg : String) : D ε Unit := D.modify fun d => { d with err := some (.syntax msg d.line) }

/-- `if d.err == io.EOF { d.err = d.syntaxError(msg) }`. -/
def ifEOF (msg : String) : D ε Unit := D.modify fun d =>
  match d.err with
  | some (.stop .eof) => { d with err := some (.syntax msg d.line) }
  | _ => d

/-- The number of steps is exhausted. -/
def exhausted : D ε Unit := D.modify fun d => { d with err := some .fuel }

/-- `d.buf.Reset()`. -/
def reset : D ε Unit := D.modify fun d => { d with buf := [] }
/-- `d.buf.Write(x)`. -/
def write (x : Bytes) : D ε Unit := D.modify fun d => { d with buf := d.buf ++ x }
/-- `d.buf.Truncate(n)`. -/
def truncate (n : Nat) : D ε Unit := D.modify fun d => { d with buf := d.buf.take n }

/-- `getc` (rbxlx/document.go:656-680). -/
def getc : D ε (Option Byte) := fun d =>
  if d.err.isSome then .ret (none, d)
  else
    match d.next with
    | b :: rest => .ret (some b, { d with next := rest, line := d.line + (if b = 10#8 then 1 else 0) })
    | [] => .read fun
      | .inr x => .ret (none, { d with err := some (.stop x) })
      | .inl b => .ret (some b, { d with line := d.line + (if b = 10#8 then 1 else 0) })

/-- `mustgetc` (rbxlx/document.go:682-693). -/
def mustgetc : D ε (Option Byte) := do
  match ← getc with
  | some b => return some b
  | none =>
    ifEOF "unexpected EOF"
    return none

/-- `ungetc` (rbxlx/document.go:695-701). -/
def ungetc (b : Byte) : D ε Unit := D.modify fun d =>
  { d with next := b :: d.next, line := d.line - (if b = 10#8 then 1 else 0) }

/-- The loop that puts back what has been matched. -/
def ungetAll : Bytes → D ε Unit
  | [] => return ()
  | b :: rest => do
    ungetc b
    ungetAll rest

/-- `match` (rbxlx/document.go:703-715) of the second argument; the first is what has been matched, the last byte first.
Also the loop of `decodeCData` (rbxlx/document.go:371-381), with `some false` for a mismatch and `none` for the end. -/
def matchBytes : Bytes → Bytes → D ε (Option Bool)
  | _, [] => return some true
  | seen, c :: cs => do
    match ← getc with
    | none => return none
    | some b =>
      if b = c then matchBytes (c :: seen) cs
      else do
        ungetc b
        ungetAll seen
        return some false

/-- `space` and `readSpace` (rbxlx/document.go:617-645). -/
def space : Nat → D ε Unit
  | 0 => exhausted
  | F + 1 => do
    match ← getc with
    | none => return ()
    | some b => if isSpace b then space F else ungetc b

/-- The loop of `readName`. -/
def nameLoop (t : NameType) : Nat → D ε Bool
  | 0 => do
    exhausted
    return false
  | F + 1 => do
    match ← mustgetc with
    | none => return false
    | some b =>
      if isNameByte t b then do
        write [b]
        nameLoop t F
      else do
        ungetc b
        return true

/-- `readName` (rbxlx/document.go:893-918). -/
def readName (F : Nat) (t : NameType) : D ε Bool := do
  match ← mustgetc with
  | none => return false
  | some b =>
    if isNameByte t b then do
      write [b]
      nameLoop t F
    else do
      ungetc b
      return false

/-- `name` (rbxlx/document.go:881-891). -/
def name (F : Nat) (t : NameType) : D ε (Option Bytes) := do
  reset
  if ← readName F t then return some (← D.get).buf else return none

/-- The loop over the digits of a numeric entity (rbxlx/document.go:800-807): the first byte after them. -/
def digitLoop (hex : Bool) : Nat → Byte → D ε (Option Byte)
  | 0, _ => do
    exhausted
    return none
  | F + 1, b =>
    if isEntityDigit hex b then do
      write [b]
      match ← mustgetc with
      | none => return none
      | some b => digitLoop hex F b
    else return some b

/-- The digits of a numeric entity, of which `b` is the first (rbxlx/document.go:799-825). `before` is the length of the
text before the entity. The result is false if `text` returns nil. -/
def digits (F : Nat) (hex : Bool) (before : Nat) (b : Byte) : D ε Bool := do
  let start := (← D.get).buf.length
  match ← digitLoop hex F b with
  | none => return false
  | some b =>
    if b ≠ 59#8 then do
      ungetc b
      return true
    else do
      let s := (← D.get).buf.drop start
      write [59#8]
      match entityNumber hex s with
      | some c => do
        truncate before
        write [c]
        return true
      | none => return true

/-- An entity, from after `&` (rbxlx/document.go:775-860). The result is false if `text` returns nil. -/
def entity (F : Nat) : D ε Bool := do
  let before := (← D.get).buf.length
  write [38#8]
  match ← mustgetc with
  | none => return false
  | some b =>
    if b = 35#8 then do
      write [b]
      match ← mustgetc with
      | none => return false
      | some b =>
        if b = 120#8 then do
          write [b]
          match ← mustgetc with
          | none => return false
          | some b => digits F true before b
        else digits F false before b
    else do
      ungetc b
      let ok ← readName F .entity
      if !ok && (← failed) then return false
      else
        match ← mustgetc with
        | none => return false
        | some b =>
          if b ≠ 59#8 then do
            ungetc b
            return true
          else do
            let name := (← D.get).buf.drop (before + 1)
            write [59#8]
            match entityNamed name with
            | some c => do
              truncate before
              write [c]
              return true
            | none => return true

/-- The end of `text` (rbxlx/document.go:872-878), with `trunc`. -/
def finish (trunc : Nat) : D ε (Option Bytes) := do
  let b := (← D.get).buf
  return some (b.take (b.length - trunc))

/-- The loop of `text` (rbxlx/document.go:733-871); `none` is nil. -/
def textLoop (mode : TextMode) : Nat → Byte → Byte → D ε (Option Bytes)
  | 0, _, _ => do
    exhausted
    return none
  | F + 1, b0, b1 => do
    match ← getc with
    | none =>
      if mode = .cdata then do
        ifEOF "unexpected EOF in CDATA section"
        return none
      else finish 0
    | some b =>
      if b0 = 93#8 ∧ b1 = 93#8 ∧ b = 62#8 ∧ mode = .cdata then finish 2
      else if b0 = 93#8 ∧ b1 = 93#8 ∧ b = 62#8 ∧ mode = .plain then do
        syntaxError "unexpected ']]>'"
        return none
      else if b = 60#8 ∧ mode = .plain then do
        ungetc b
        finish 0
      else if b = 34#8 ∧ mode = .quoted then finish 0
      else if b = 38#8 ∧ mode ≠ .cdata then do
        if ← entity F then textLoop mode F 0#8 0#8 else return none
      else if b = 13#8 then do
        write [10#8]
        textLoop mode F b1 b
      else if b1 = 13#8 ∧ b = 10#8 then textLoop mode F b1 b
      else do
        write [b]
        textLoop mode F b1 b

/-- `text` (rbxlx/document.go:725-879). -/
def text (F : Nat) (mode : TextMode) : D ε (Option Bytes) := do
  reset
  textLoop mode F 0#8 0#8

/-- `attrval` (rbxlx/document.go:603-615). -/
def attrval (F : Nat) : D ε (Option Bytes) := do
  match ← mustgetc with
  | none => return none
  | some b =>
    if b = 34#8 then text F .quoted
    else do
      syntaxError "unquoted or missing attribute value in element"
      return none

/-- The loop of `ignoreStartTag`: false if there is an error. -/
def ignoreLoop : Nat → D ε Bool
  | 0 => do
    exhausted
    return false
  | F + 1 => do
    match ← mustgetc with
    | none => return false
    | some b => if b = 62#8 then return true else ignoreLoop F

/-- `ignoreStartTag` (rbxlx/document.go:252-266): `none` is -1, `some .ignored` is 0. -/
def ignoreStart (F : Nat) (msg : String) (h : Head) : D ε (Option (StartState × Head)) := do
  D.modify fun d => { d with warns := d.warns ++ [(msg, d.line)] }
  if ← ignoreLoop F then return some (.ignored, h) else return none

/-- The loop of `decodeComment` (rbxlx/document.go:270-278): false if there is an error. -/
def commentLoop : Nat → D ε Bool
  | 0 => do
    exhausted
    return false
  | F + 1 => do
    match ← mustgetc with
    | none => return false
    | some b =>
      if b = 45#8 then do
        if (← matchBytes [] [45#8, 62#8]) = some true then return true
        else do
          write [b]
          commentLoop F
      else do
        write [b]
        commentLoop F

/-- `decodeComment` (rbxlx/document.go:268-282). -/
def decodeComment (F : Nat) : D ε (Option (StartState × Head)) := do
  reset
  if ← commentLoop F then return some (.comment, { comment := true, text := (← D.get).buf }) else return none

/-- The loop over the attributes in `decodeStartTag` (rbxlx/document.go:316-362). -/
def attrLoop : Nat → Head → D ε (Option (StartState × Head))
  | 0, _ => do
    exhausted
    return none
  | F + 1, tag => do
    space F
    match ← mustgetc with
    | none => return none
    | some b =>
      if b = 47#8 then do
        match ← mustgetc with
        | none => return none
        | some b =>
          if b ≠ 62#8 then ignoreStart F "expected /> in element" { tag with empty := true }
          else return some (.tag, { tag with empty := true })
      else if b = 62#8 then return some (.tag, tag)
      else do
        ungetc b
        match ← name F .attr with
        | none => ignoreStart F "expected attribute name in element" { tag with attr := tag.attr ++ [([], [])] }
        | some n =>
          space F
          match ← mustgetc with
          | none => return none
          | some b =>
            if b ≠ 61#8 then ignoreStart F "attribute name without = in element" { tag with attr := tag.attr ++ [(n, [])] }
            else do
              space F
              match ← attrval F with
              | none => return none
              | some v => attrLoop F { tag with attr := tag.attr ++ [(n, v)] }

/-- `decodeStartTag` (rbxlx/document.go:284-364): `none` is -1. -/
def decodeStartTag (F : Nat) : D ε (Option (StartState × Head)) := do
  match ← getc with
  | none => return none
  | some b =>
    if b ≠ 60#8 then do
      syntaxError "expected start tag"
      return none
    else
      match ← mustgetc with
      | none => return none
      | some b =>
        if b = 47#8 then do
          syntaxError "unexpected end tag"
          return none
        else do
          let comment ← if b = 33#8 then matchBytes [] [45#8, 45#8] else Pure.pure none
          if comment = some true then decodeComment F
          else do
            ungetc b
            match ← name F .tag with
            | none => ignoreStart F "expected element name after <" {}
            | some n => attrLoop F { startName := n }

/-- `decodeCData` (rbxlx/document.go:366-390): `none` is false; otherwise `tag.CData`. -/
def decodeCData (F : Nat) : D ε (Option (Option Bytes)) := do
  match ← matchBytes [] cdataOpen with
  | none => return none
  | some false => return some none
  | some true =>
    match ← text F .cdata with
    | none => return none
    | some t => return some (some t)

/-- `decodeEndTag` (rbxlx/document.go:402-437): `none` is false; otherwise `tag.EndName`. The message of the last error
also has the name. -/
def decodeEndTag (F : Nat) : D ε (Option Bytes) := do
  match ← getc with
  | none => return none
  | some b =>
    if b ≠ 60#8 then do
      syntaxError "expected start tag"
      return none
    else
      match ← mustgetc with
      | none => return none
      | some b =>
        if b ≠ 47#8 then do
          syntaxError "expected end tag"
          return none
        else
          match ← name F .tag with
          | none => do
            if ← failed then return none
            else do
              syntaxError "expected element name after </"
              return none
          | some n => do
            space F
            match ← mustgetc with
            | none => return none
            | some b =>
              if b ≠ 62#8 then do
                syntaxError "invalid characters between </ and >"
                return none
              else return some n

/-- The requirements on the root tag (rbxlx/document.go:466-487): false if there is an error. -/
def checkRoot (h : Head) : D ε Bool :=
  match Rbxlx.checkRoot h with
  | .ok () => return true
  | .err (.other msg) => do
    syntaxError msg
    return false
  | _ => do
    syntaxError ""
    return false

/-- The space before the root tag (rbxlx/document.go:444-447). -/
def leading (F : Nat) (root : Bool) : D ε Unit := if root then space F else return ()

/-- The requirements, if the tag is the root (rbxlx/document.go:466-487). -/
def rootOk (root : Bool) (h : Head) : D ε Bool := if root then checkRoot h else return true

mutual
/-- `decodeTag` (rbxlx/document.go:439-601): `none` if there is an error, which is `d.err`; otherwise the tag, which is nil
if it is ignored. -/
def decodeTag : Nat → Bool → D ε (Option (Option Tag))
  | 0, _ => do
    exhausted
    return none
  | F + 1, root => do
    if ← failed then return none
    else do
      leading F root
      match ← decodeStartTag F with
      | none => return none
      | some (.comment, h) => return some (some ⟨h, []⟩)
      | some (state, h) => do
        if !(← rootOk root h) then return none
        else if h.empty then return some (if state = .ignored then none else some ⟨h, []⟩)
        else do
          D.modify fun d => { d with tagstack := d.line :: d.tagstack }
          space F
          match ← decodeCData F with
          | none => return none
          | some c => do
            space F
            match ← text F .plain with
            | none => return none
            | some t => do
              match ← tagLoop F with
              | none => return none
              | some (ts, endName) =>
                return some (if state = .ignored then none else some ⟨{ h with cdata := c, text := t, endName := endName }, ts⟩)
/-- The loop over the tags within a tag (rbxlx/document.go:542-585): the tags and the name of the end tag. -/
def tagLoop : Nat → D ε (Option (List Tag × Bytes))
  | 0 => do
    exhausted
    return none
  | F + 1 => do
    space F
    match ← getc with
    | none => do
      D.modify fun d => { d with err := d.tagstack.head?.map .unmatched }
      return none
    | some b =>
      if b ≠ 60#8 then do
        syntaxError "expected tag"
        return none
      else
        match ← mustgetc with
        | none => return none
        | some b =>
          if b = 47#8 then do
            ungetc 47#8
            ungetc 60#8
            match ← decodeEndTag F with
            | none => return none
            | some n => do
              D.modify fun d => { d with tagstack := d.tagstack.tail }
              return some ([], n)
          else do
            ungetc b
            ungetc 60#8
            match ← decodeTag F false with
            | none => return none
            | some t => do
              match ← tagLoop F with
              | none => return none
              | some (ts, n) => return some (t.toList ++ ts, n)
end

/-- The loop that reads the suffix (rbxlx/document.go:966-973). -/
def suffixLoop : Nat → D ε Unit
  | 0 => exhausted
  | F + 1 => do
    match ← getc with
    | none => return ()
    | some b => do
      write [b]
      suffixLoop F

/-- `ReadFrom` (rbxlx/document.go:942-978), with a byte reader: `none` if there is an error, which is `d.err`; otherwise the
root, which may be nil, and the suffix. -/
def readFrom (F : Nat) : D ε (Option (Option Tag × Bytes)) := do
  match ← decodeTag F true with
  | none => return none
  | some t => do
    reset
    suffixLoop F
    return some (t, (← D.get).buf)

end Dec
end Rbxlx

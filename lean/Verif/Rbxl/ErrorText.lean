import Verif.Rbxl.Dump
import Verif.Errors.Model
/-!
# The errors of the formats (rbxl/errors.go, rbxl/arrays.go:10-43, rbxl/codec.go:29-37, rbxl/values.go:555-562,
rbxlx/document.go:215-226) and their texts
-/
namespace Rbxl
open Go

/-- A Go `error` other than nil, with the fields of each type of error. A cause may be nil. -/
inductive GoError where
  /-- Any error that is not of one of the types below, known by its message: `errors.New`, the errors of readers and writers. -/
  | plain (msg : Bytes)
  /-- `errUnrecognizedVersion` (rbxl/errors.go:24-30) -/
  | version (v : BitVec 16)
  /-- `errUnknownType` (rbxl/errors.go:32-37) -/
  | unknownType (t : Byte)
  /-- `errReserve` (rbxl/errors.go:39-50) -/
  | reserve (offset : BitVec 64) (bytes : Bytes)
  /-- `errParentArray` (rbxl/errors.go:52-59) -/
  | parentArray (children parent : BitVec 64)
  /-- `errExpectedMoreBytes` (rbxl/arrays.go:10-14) -/
  | moreBytes (n : BitVec 64)
  /-- `errElementType` (rbxl/arrays.go:16-24) -/
  | elementType (index : BitVec 64) (got want : Bytes)
  /-- `errInvalidType` (rbxl/arrays.go:26-30) -/
  | invalidType (t : Byte)
  /-- `buflenError` (rbxl/values.go:555-562) -/
  | buflen (exp got : BitVec 64)
  /-- `errBounds` (rbxl/codec.go:29-37) -/
  | bounds (kind : Bytes) (index : BitVec 32) (bounds : BitVec 32)
  /-- `syntaxError` (rbxlx/document.go:215-226) -/
  | syntax (msg : Bytes) (line : BitVec 64)
  /-- `ValueError` (rbxl/errors.go:64-77) -/
  | value (type : Byte) (cause : Option GoError)
  /-- `XMLError` (rbxl/errors.go:79-93) -/
  | xml (cause : Option GoError)
  /-- `CodecError` (rbxl/errors.go:95-110) -/
  | codec (cause : Option GoError)
  /-- `DataError` (rbxl/errors.go:112-136) -/
  | data (offset : BitVec 64) (cause : Option GoError)
  /-- `ChunkError` (rbxl/errors.go:138-157) -/
  | chunk (index : BitVec 64) (sig : BitVec 32) (cause : Option GoError)
  /-- `indexError` (rbxl/arrays.go:32-43) -/
  | index (index : BitVec 64) (cause : Option GoError)
  /-- `errors.Errors` (errors/errors.go:24-47) -/
  | errs (l : List (Option GoError))
  deriving Repr, Inhabited

namespace GoError

/-- `fmt`'s `%X` of a byte: no leading zeros. -/
def hexByte (b : Byte) : Bytes :=
  if b.toNat < 16 then [upperHex b.toNat] else [upperHex (b.toNat / 16), upperHex (b.toNat % 16)]

/-- `typeID.String` of any byte (rbxl/values.go:220-287). -/
def typeName (b : Byte) : Bytes := match TypeID.ofByte b with
  | some t => t.name
  | none => str "Invalid"

/-- What `fmt` writes for the verb `%s` of an error: its message; `<nil>` if it is nil; and if `Error` panics, a note of the panic,
which here is always that of a method of a nil interface. -/
def verb : Option (Res Bytes) → Bytes
  | none => str "%!s(<nil>)"
  | some (.ok msg) => msg
  | some _ => str "%!s(PANIC=Error method: runtime error: invalid memory address or nil pointer dereference)"

/-- `% 02X` of a byte slice: two digits for each byte and a blank between them. The zeros that some versions of Go write for an
empty slice are not modelled; the slice of the only use has four bytes (rbxl/decoder.go:168-172). -/
def hexBytes (b : Bytes) : Bytes := List.intercalate (str " ") (b.map upperHex2)

/-- The offset in the message of a `DataError` (rbxl/errors.go:123-126). -/
def place (off : BitVec 64) : Bytes := if off.toInt < 0 then [] else str " at " ++ formatInt off.toInt
/-- The index in the message of a `ChunkError` (rbxl/errors.go:149-152). -/
def number (i : BitVec 64) : Bytes := if i.toInt < 0 then [] else str "#" ++ (formatInt i.toInt ++ str " ")

mutual
/-- `err.Error()`, whose lines in the source are those of the constructors. A call of `Error` of a nil error panics.
`isPrint` is `unicode.IsPrint`. -/
def text (isPrint : Nat → Bool) : GoError → Res Bytes
  | .plain msg => .ok msg
  | .version v => .ok (str "unrecognized version " ++ formatUint v.toNat)
  | .unknownType t => .ok (str "unknown data type 0x" ++ hexByte t)
  | .reserve off b =>
    .ok (str "unexpected content for reserved bytes near " ++ (formatInt off.toInt ++ (str ": " ++ hexBytes b)))
  | .parentArray children parent =>
    .ok (str "length of parents array (" ++ (formatInt parent.toInt ++ (str ") does not match length of children array (" ++
      (formatInt children.toInt ++ str ")"))))
  | .moreBytes n => .ok (str "expected " ++ (formatInt n.toInt ++ str " more bytes in array"))
  | .elementType i got want =>
    .ok (str "element " ++ (formatInt i.toInt ++ (str " is of type " ++ (got ++ (str " where " ++ (want ++ str " is expected"))))))
  | .invalidType t => .ok (str "invalid type (" ++ (upperHex2 t ++ str ")"))
  | .buflen exp got => .ok (str "expected " ++ (formatUint exp.toNat ++ (str " bytes, got " ++ formatInt got.toInt)))
  | .bounds kind i b =>
    .ok (kind ++ (str " " ++ (formatInt i.toInt ++ (str " out of bounds [0," ++ (formatUint b.toNat ++ str "]")))))
  | .syntax msg line =>
    .ok (if msg = [] then str "unmatched tag on line " ++ formatInt line.toInt
      else str "XML syntax error on line " ++ (formatInt line.toInt ++ (str ": " ++ msg)))
  | .value _ none => .panic
  | .value t (some e) => do
    let m ← text isPrint e
    pure (str "type " ++ (typeName t ++ (str " (0x" ++ (hexByte t ++ (str "): " ++ m)))))
  | .xml none => .ok (str "decoding XML")
  | .xml (some e) => do
    let m ← text isPrint e
    pure (str "decoding XML: " ++ m)
  | .codec none => .ok (str "codec error")
  | .codec (some e) => do
    let m ← text isPrint e
    pure (str "codec error: " ++ m)
  | .data off none => .ok (str "data error" ++ place off)
  | .data off (some e) => do
    let m ← text isPrint e
    pure (str "data error" ++ (place off ++ (str ": " ++ m)))
  | .chunk _ _ none => .panic
  | .chunk i s (some e) => do
    let m ← text isPrint e
    pure (number i ++ (quote isPrint (sigString s) ++ (str " chunk: " ++ m)))
  | .index i none => .ok (str "#" ++ (formatInt i.toInt ++ (str ": " ++ verb none)))
  | .index i (some e) => .ok (str "#" ++ (formatInt i.toInt ++ (str ": " ++ verb (some (text isPrint e)))))
  | .errs [] => .ok (str "no errors")
  | .errs [none] => .panic
  | .errs [some e] => text isPrint e
  | .errs l => do
    let rest ← texts isPrint l
    pure (str "multiple errors:" ++ rest)
/-- The loop of `Errors.Error` (errors/errors.go:39-44). -/
def texts (isPrint : Nat → Bool) : List (Option GoError) → Res Bytes
  | [] => .ok []
  | none :: _ => .panic
  | some e :: l => do
    let msg ← text isPrint e
    let rest ← texts isPrint l
    pure (str "\n\t" ++ Errors.indent msg ++ rest)
end

/-- `errors.Unwrap` (rbxl/errors.go:75-77, 91-93, 108-110, 134-136, 155-157, rbxl/arrays.go:41-43); the other types, among them
`errors.Errors`, have no method `Unwrap`. -/
def unwrap : GoError → Option GoError
  | .value _ c => c
  | .xml c => c
  | .codec c => c
  | .data _ c => c
  | .chunk _ _ c => c
  | .index _ c => c
  | _ => none

end GoError
end Rbxl

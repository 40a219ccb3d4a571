# Formal model of RobloxAPI/rbxfile in Lean 4

`/verif/lean/Verif` contains an executable Lean model of the Go code in `/repo`
and machine-checked theorems about it.  Properties are listed in
`properties.jsonl`; `MANIFEST.json` maps each to its theorems.

## Conventions

* Go `byte` = `BitVec 8`; `[]byte`/`string` = `List (BitVec 8)`; fixed-width
  integers = `BitVec n` (two's complement); `float32/64` = the raw IEEE bit
  pattern.  Float comparison `==` is modelled on bits (NaN differs from itself,
  +0 = -0).  No float arithmetic is modelled.
* A Go function that can return an error or panic returns `Res α` =
  `ok a | err e | panic`.  A panic (index out of range, nil dereference, failed
  type assertion, explicit panic) is an explicit outcome so that "never panics"
  is a statement.
* A Go map is an association list; its list order plays the role of the (random)
  iteration order, so determinism statements quantify over permutations.
* Pointers to `Instance` are natural numbers indexing a heap; structure
  preservation is stated with an explicit correspondence between heaps.
* A function that mutates through a pointer returns the new value.  In-place
  mutation of the input buffer (`deinterleave`) is modelled: the mutated buffer
  is returned.
* Recursion over possibly cyclic instance graphs takes fuel or a tree-shaped
  witness; this is said at each definition.

## Trusted base

Lean 4.33 kernel; axioms `propext`, `Classical.choice`, `Quot.sound` at most.
No own axioms, no `native_decide`/`bv_decide`.
External code taken as parameters with a stated contract: lz4 (lossless),
blake2b-256 and md5 (collision-free on the strings at hand), the random source
(an arbitrary oracle), `encoding/json` itself, `github.com/anaminus/parse` BinaryReader /
BinaryWriter (little-endian, full reads, sticky error; for C74 and C75 one `Write`
per number or byte string), `bufio.Writer` of the Go library (modelled from its source, for C73), `io.ReadFull` and `io.ReadAll` (modelled from their source, for C76), `bufio.Reader` (modelled from its source, for C77), `sort.Sort` (a sorting
permutation; insertion sort for the inconsistent comparator, which is what Go
does for fewer than 12 elements).

`strconv.FormatFloat(f, 'g', prec, bits)` and `strconv.ParseFloat` are modelled
exactly, by arithmetic on natural numbers (`Go/Decimal.lean`): correctly rounded
(half to even) to `prec` decimal digits, and correctly rounded to the nearest
float of a decimal text.  Not modelled of `ParseFloat`: hexadecimal mantissas and
underscores, which need base prefixes (the XML encoder never writes them; such a
text is an error in the model).

Conversions between integers, float32 and float64 are modelled exactly
(`Go/FloatConv.lean`); the result of converting a float that is out of range of
the integer type is a parameter, since the language leaves it open.  In the json
and declare models, Go maps are association lists; the order of entries is seen
by the code only through `range`, which goes through an arbitrary permutation
(`Iter`), or not at all.

`strconv.FormatFloat(f, 'g' or 'f', -1, bits)` (dumps, `Value.String`) is modelled
exactly, too (`Go/Shortest.lean`): the fewest digits that `ParseFloat` reads as the
number, and the nearest of these. That it is read back is a theorem
(`Rbxlx.short32_parse`, `short64_parse`). For the dump (C83, C84)
`unicode.IsPrint`, `unicode.IsGraphic` and
`time.Time.Format` are arbitrary functions; `strconv.Quote` and the decoding
of UTF-8 are modelled (`Go/Quote.lean`). The decoded part of an errored chunk
(rbxl/dump.go:190-202) is modelled by `Rbxl/Partial.lean`: the fields and elements
that were set when the error occurred (`partBody_ok`: without an error it is the
chunk). Arbitrary there: the texts of `Offset` and `Cause`, and what the positions
of CFrames are read from when the deinterleaving goes beyond the end of the payload
(`DumpText.fault`, `spill`). That the text determines the file (C83) is for files
without errored chunks. Not modelled: which calls of `Write` `Dump` makes (C84 is
for all).

Not modelled: `cmd/*` (in part),
memory limits, goroutines (the code has none).

## Files

| module | models |
|---|---|
| `Verif/Go/*` | byte strings, result type, float equality |
| `Verif/Rbxfile/*` | `values.go`, `file.go`, `ref.go` |
| `Verif/Errors.lean` | `errors/errors.go` |
| `Verif/Rbxl/*` | `rbxl/` |
| `Verif/Rbxlx/*` | `rbxlx/` |
| `Verif/Json/*` | `json/` |
| `Verif/Declare/*` | `declare/` |
| `Verif/Cmd/*` | `cmd/rbxfile-stat` |
| `Verif/Spec/*` | small independent specifications |
| `Verif/Props/*` | the property theorems, with non-vacuity examples |

## Plan per property

| id | modelled | proof |
|---|---|---|
| C01 | every `Bytes`/`FromBytes` pair of rbxl/values.go | per-type parser lemma `parse (enc v ++ rest) = (v, rest)` |
| C02 | `BytesLen`, buffer checks | length lemma per type; prefix → error by case analysis |
| C03 | zigzag, float rotation | bit-extensionality |
| C04 | `transpose` loop (square and non-square), `interleave`, `deinterleave` | loop invariant; index arithmetic |
| C05 | `arrayToBytes`/`arrayFromBytes`, ref and CFrame arrays | induction over the array, C01, C04 |
| C06 | `arrayOptional` | round-trip for non-interleaved and CFrame; negation witness for interleaved types |
| C07 | chunk Decode/WriteTo | parser lemma per chunk |
| C08, C09, C25 | raw chunk and file framing, `Decompress` | induction over chunks, lz4 contract |
| C10 | `Decode`, `Decompress` | both factor through the raw chunk list |
| C11–C16 | `robloxCodec.Encode/Decode` | invariants of id assignment, of parent links, of property filling |
| C17, C18 | META and sorting | permutation invariance; negation witness for the metadata comparator |
| C19, C21 | panic outcomes | exact conditions for a panic (`Spec/DecodePanics.lean`, `Spec/EncodePanics.lean`), partial theorems + negation witnesses |
| C20, C23, C24 | codec `Decode` on chunk lists | fold invariants; for C20 also the exact set of accepted files (`Spec/DecodePanics.lean`) |
| C22 | header dispatch | case analysis |
| C26 | cframe tables | finite tables by kernel decision; matrices by case split |
| C27–C30 | `Instance.Copy` on a heap | induction on tree with heap-extension invariant |
| C31 | `Value.Copy` | case analysis; negation for Font |
| C29, C32, C33 | ref.go | invariant over histories |
| C34, C36 | name tables | case analysis over the table |
| C35 | hex formatting | digit lemma |
| C37 | errors | induction |
| C38–C42 | document writer and parser | parser lemma by induction on document; negations |
| C43, C60 | base64, line writers | induction |
| C44–C46 | XML scalar values | decimal print/parse lemma |
| C47–C50 | XML codec | induction over instances |
| C51, C52 | json | case analysis, induction; negations |
| C53, C54 | declare | induction; case analysis; negations |
| C55, C56, C58, C59 | integers, type ids, signatures, flags | bit-extensionality, finite tables |
| C57 | stats | fold invariant |
| C61 | document parser | fuel bound and no-panic by induction |
| C62 | root check | case analysis |
| C63 | `getFrom`, `getValue`, `getItems` | panic is an outcome of the model; invariant of the component loop; negation witness; exact characterisation of the documents that panic by induction over the tags |
| C64 | `sortedProps`, metadata, shared strings | uniqueness of sorted permutations |
| C65 | `References.Get` in `encodeInstance` | invariant over the traversal |
| C66 | `encodeProperty`/`getProperty` | per-type lemma, decimal print/parse lemma; negations; exact result for every value (`Spec.XmlAltered`) |
| C67 | `TypeFromString` of declare | finite table; iteration order as a permutation |
| C68 | `decodeFile` + `codecDecode` | invariant of the chunk loop against a declarative reading of the chunks (Spec/DecodeBinary) |
| C69 | same | each child has one parent: depth is unique and bounded, hence a forest; negation witness |
| C70 | `rbxlx.decode` | mutual induction on tags: the loop mirrors the Item tags (Spec/DecodeXml); pending entries per instance; later assignments |
| C71 | `Rbxlx.decode`, then `Rbxl.encodeRoot`, `decodeRoot` | C70 gives trees of all instances; proper maps and Optional types from the tags; compose with the round trip of C11-C18 |
| C72 | `Rbxl.decodeRoot`, then `Rbxlx.encode`, `decode` | C68, C69 give trees; invariant of the chunk loop: proper maps, no references of their own, references lead to instances; compose with C41, C65 and the XML round trip |
| C73 | `encoder` and `Document.WriteTo` of rbxlx/document.go as they call `bufio.Writer` (`Rbxlx.EncW`, `Rbxlx.encodeTo`), over any writer | invariant of the buffered writer: what has arrived and what is in the buffer is what was written; induction over the tags; compared with `Rbxlx.encode`, the function that the other theorems are about |
| C74 | `Encoder.encode` of rbxl as it calls `parse.BinaryWriter` (`Rbxl.BinW`, `Rbxl.encodeRootTo`), over any writer | induction over the chunks; compared with `Rbxl.encodeRoot`; partial: an error that is an empty `errors.Errors` is dropped |
| C75 | as C74, with the count of `parse.BinaryWriter` | the count is the number of bytes that have arrived plus the payloads counted by `fw.Add`; partial: false of the code after the header; `C75_exact` is the exact formula, from the number of calls of the writer |
| C76 | any `io.Reader` as a state machine (Spec/Reader), `io.ReadFull` and `io.ReadAll` (Go/Reader), the decoder as it calls the reader (Rbxl/ReadFrom, Rbxl/ReadRoot) | simulation: each part of the decoder does with the reader what the function on byte strings does with the bytes it delivers |
| C77 | `io.ByteReader` as a state machine (Spec/ByteReader), `bufio.Reader` (Go/Bufio), the XML parser as it calls the reader, byte by byte (Rbxlx/ReadIO), `Decoder.Decode` (Rbxlx/DecodeFrom) | simulation: each method of the parser does what the function on byte strings of Rbxlx/Document does (Rbxlx/ReadSim, ReadSimTag, ReadSimDoc); a program that reads bytes depends only on the bytes delivered (induction on programs) |
| C78 | the same; `d.line`, the stack of lines and the warnings are part of the state | the invariant of the same simulation: the line is one more than the number of newlines before the position |
| C79 | concrete syntax trees in `Spec.XmlGrammar` (how a node is written, which can be written, what it means), apart from the parser of `Rbxlx.Document` | completeness by recursion on pieces of text, attributes and nodes; soundness by induction on the steps of each loop of the parser; the version by a characterisation of `ParseInt` |
| C80 | Spec/XmlProperty says what each tag means without the decoder; Props/XmlProperty proves decoder = meaning in both directions for all 32 types, from per-type lemmas in Rbxlx/PropertyText, PropertyComps, PropertyCut, PropertyValue. |
| C81 | The decoder transcribed once more with the warnings (Rbxlx/Warnings) and shown to be the decoder otherwise; counts by recursion over tags; for the encoder, all names it produces are well-formed. |
| C82 | The walk of the program transcribed with its callbacks (Cmd/Stat) and shown to be a fold over a permutation of the calls for the list of instances; counters are characterised key by key; the list of the largest properties by the contract of sort. |
| C83 | `Rbxl/Dump` transcribes the text; unique readability of each part (`DumpLemmas`: equal texts followed by separators have equal parts and equal rests), values of decoded arrays have their types (`DumpDecoded`) |
| C84 | the decoder of C68 for warnings and errors; `bufio.Writer` of C73 for the delivery |
| C85 | model of all `String` methods in `Rbxfile/Text.lean` with exact shortest floats; unique readability of texts with separators (`Props/ValueText.lean`); read back through `Rbxlx.short32_parse` |
| C86 | the warnings in the state of the chunk loop and of the codec loop, compared with a specification computed from the list of chunks (`Spec/DecodeWarnings.lean`, `Props/DecodeWarnings.lean`) |
| C87 | `main` as a function of the arguments, the files and the decisions of the operating system (`Cmd/Main.lean`); cases on these (`Props/Commands.lean`) |
| C88 | the warnings of the codec beside its plan of the properties (`Rbxl/EncodeWarnings.lean`), induction over the values and the classes; C88_lost with the roundtrip of C12 (`Props/EncodeWarnings.lean`) |
| C89 | all types of errors and their texts (`Rbxl/ErrorText.lean`), with `fmt`'s treatment of nil and panicking causes; unique readability of the contexts, induction over layers and over nested lists (`Props/ErrorText.lean`, `Spec/ErrorText.lean`) |
| C90 | a simulation between the encoder on a tree and on what is decoded for it: plans, values (rotations replaced by those of the table, missing values), shared strings in the same order, references by position (`Rbxl/Simulate.lean`, `Rbxl/Resave.lean`, `Props/Resave.lean`) |
| C91 | the simulation of C90, from a symmetric correspondence of trees (`Spec/SameTree.lean`, `Rbxl/SameTree.lean`, `Props/SameTree.lean`) |
| C92 | a relation of tags that are written alike, between the tags of the tree and those of the decoded tree; numbers by exact arithmetic about the decimals next to a binary number (`Spec/Settled.lean`, `Rbxlx/StableFloat.lean`, `Rbxlx/DecodeOk.lean`, `Rbxlx/Resave.lean`, `Rbxlx/ResaveTwice.lean`, `Props/XmlResave.lean`) |
| C93 | simulation of two runs of the encoder on corresponding instances; after copying, the table of references shows that they are different (`Spec/SameXml.lean`, `Rbxlx/SameXml.lean`, `Rbxfile/CopyMaps.lean`, `Props/SameXml.lean`) |
| C94 | the listing of the tree by `addInst` and `recInst` is its pre-order and post-order; sorting of classes and properties; reading back as in C08 (`Spec/FileLayout.lean`, `Rbxl/Layout.lean`, `Props/FileLayout.lean`) |
| C95 | the evaluated declaration is a forest with the declared listing (`Declare/Save.lean`); values by C54, saving by C11, C12, C19, C48, C66 (`Spec/DeclareSave.lean`, `Props/DeclareSave.lean`) |
| C96 | tags of the encoder (`Rbxlx/TreeEnc.lean`) as they are read back; sorted names are strictly increasing; skeletons of values by cases (`Spec/XmlFile.lean`, `Rbxlx/XmlLayout.lean`, `Props/XmlLayout.lean`) |
| C97 | induction on the structure with the path of ancestors as measure; conversely the result of each recursion builds the list of occurrences (`Rbxfile/Finite.lean`, `Rbxl/NotTree.lean`, `Rbxlx/TreeTotal.lean`, `Json/Finite.lean`, `Rbxfile/CopyFinite.lean`, `Props/NotTree.lean`) |
| C98 | invariant of the reading state: instances exist, are registered under their references, are blank until described; induction on the list of objects (`Json/Read.lean`, `Json/ReadMain.lean`, `Props/JsonRead.lean`) |
| C99 | induction on chunks and columns: each encoder of the model yields the bytes of the specification, and these determine the chunks (`Rbxl/Wire.lean`, `Rbxl/WireValue.lean`, `Rbxl/WireRead.lean`, `Props/Wire.lean`) |
| C100 | induction on values and on the list of instances that are written (`Json/Form.lean`), inversion of the reader for every type (`Json/FormRead.lean`); statements in `Props/JsonForm.lean` |
| C101 | a relation between the tags of the model and elements of the specification, induction on elements for the writer with its indentation, inspection of every type of value, induction on the listed instances (`Rbxlx/XmlText.lean`); statement in `Props/XmlText.lean` |
| C102 | both runs in lock step: the final References of the first run are those the second one finds (`Rbxlx/Again.lean`, `Json/Again.lean`); statement in `Props/Again.lean` |
| C103 | sizes are added up through the readers: a value is no larger than its bytes, an instance than its four bytes in the instance chunk, a child than its eight in the parent chunk (`Rbxl/Size.lean`); for XML a tag costs no more than the bytes it is read from, and what is made of it no more than its cost (`Rbxlx/Size.lean`); statement in `Props/Size.lean` |
| C104 | the chunk is replaced with one that the codec ignores, which a simulation relates to the run with the chunk (`Rbxl/Local.lean`), and then removed with the lemmas of C23; statement in `Props/Local.lean`, specification in `Spec/Effects.lean` |
| C105 | readers are shown to give the same value when bytes behind it are cut off and to fail when bytes of it are (`Rbxl/Cut.lean`, `Rbxl/CutValues.lean`); statement in `Props/Cut.lean`, specification in `Spec/Cut.lean` |
| C106 | the effects of two steps of the fold over the chunks commute up to the order of maps, and later steps keep states that are the same up to this (`Rbxl/Swap.lean`); statement in `Props/Order.lean`, specification in `Spec/Apart.lean` |
| C107 | the functions of the decoder are shown to give the same for related lists of tags, by induction on the relation (`Rbxlx/Ignored.lean`, `Props/XmlIgnored.lean`); specification in `Spec/XmlIgnored.lean` |
| C108 | from the exact description of decoded documents (C70), of which the properties are shown to depend on the tags of each name alone (`Props/XmlOrder.lean`); specification in `Spec/XmlOrder.lean` |
| C109 | from the exact description of decoded documents (C70): the instances of the tags before, in and after the place are consecutive, and those before and after are described by the same tags (`Props/XmlReplace.lean`); specification in `Spec/XmlReplace.lean` |
| C110 | deep equivalence of JSON values by lookups, simulation of the reading state: heap up to the order of properties, pending references up to the order of different properties (`Json/Fields.lean`, `Json/FieldsMain.lean`, `Props/JsonFields.lean`); specification in `Spec/JsonFields.lean`, `Spec/SameJson.lean` |
| C111 | what is read from JSON (C98) is a forest of instances without children, to which the round trip of the XML format applies (`Props/ConvertJson.lean`) |
| C112 | what is read from JSON (C98) is a forest of instances without children, to which the round trip of the binary format applies (`Props/ConvertJsonBinary.lean`) |
| C113 | what is read from JSON (C98) is finite and a forest of instances without children, to which C97 and C52 apply (`Props/JsonResave.lean`) |
| C114 | the tree decoded from an XML file is finite and its references lead to instances in it, so C97 and C100 apply (`Props/ConvertXmlJson.lean`) |
| C115 | the structure decoded from a binary file has only references to instances in it (binary_mentions), so C97 and C100 apply (`Props/ConvertBinaryJson.lean`) |

{"id": "C01", "title": "Binary property values round-trip", "statement": "For every binary-format value kind (string, bool, int, float, double, UDim, UDim2, Ray, Faces, Axes, BrickColor, Color3, Vector2, Vector3, Vector2int16, CFrame, CFrameQuat, Token, Reference, Vector3int16, NumberSequence, ColorSequence, NumberRange, Rect, PhysicalProperties, Color3uint8, Int64, SharedString, UniqueId, Font), decoding the bytes produced by encoding a value yields the same value and consumes exactly the bytes written, whatever bytes follow.", "quantifier": "every value of every binary type (every bit pattern of every field, every string shorter than 2^32 bytes), every suffix", "why_tests_cant": "The domain is unbounded (or astronomically large); tests sample it.", "anchors": ["rbxl/values.go: value.Bytes / FromBytes / appendUint32 / readUint32 ...", "rbxl/arrays.go"]}
{"id": "C02", "title": "Encoded length is announced exactly and short input is rejected", "statement": "BytesLen of a value equals the number of bytes its encoding has; decoding any strict prefix of an encoding reports an error and never succeeds or panics.", "quantifier": "every value, every truncation point", "why_tests_cant": "Every truncation point of every value is an infinite family.", "anchors": ["rbxl/values.go: BytesLen, FromBytes, buflenError", "rbxl/errors.go"]}
{"id": "C03", "title": "Integer and float bit transforms are bijective", "statement": "The zigzag transform for 32- and 64-bit integers and the sign-rotation of float32 are inverse bijections on all bit patterns; zigzag maps a small magnitude to a small code (n>=0 to 2n, n<0 to -2n-1).", "quantifier": "all 2^32 / 2^64 bit patterns", "why_tests_cant": "2^64 inputs.", "anchors": ["rbxl/values.go: encodeZigzag32, decodeZigzag32, encodeZigzag64, decodeZigzag64, encodeRobloxFloat32, decodeRobloxFloat32"]}
{"id": "C04", "title": "Byte interleaving is the column-major transposition and is undone by deinterleaving", "statement": "Interleaving a non-empty array of count values of size bytes places byte j of value i at position j*count+i; deinterleaving is its exact inverse; a buffer whose length is not a multiple of the size is rejected.", "quantifier": "every buffer, every size and count", "why_tests_cant": "Array lengths are unbounded; the in-place cycle-free algorithm has separate square/non-square paths.", "anchors": ["rbxl/arrays.go: interleave, deinterleave, transpose"]}
{"id": "C05", "title": "Property arrays round-trip", "statement": "For every array type, encoding n >= 1 values of that type to a property array and decoding it with count n yields the same values (references are delta-coded modulo 2^32 and still round-trip; CFrame arrays split rotation and position).", "quantifier": "every type, every array length and contents, including reference arrays whose deltas overflow", "why_tests_cant": "Unbounded lengths, wrap-around in delta coding.", "anchors": ["rbxl/arrays.go: arrayToBytes, arrayFromBytes, refArrayToBytes, refArrayFromBytes, arrayCFrame"]}
{"id": "C06", "title": "Optional property arrays round-trip", "statement": "An array of optional values (each absent or present) with a given element type decodes to the same presence flags and values.", "quantifier": "every element type, every array", "why_tests_cant": "Depends on the interaction of in-place deinterleaving with trailing bytes for every element type.", "anchors": ["rbxl/arrays.go: arrayOptional.Bytes, FromBytes"]}
{"id": "C07", "title": "Binary chunks round-trip", "statement": "For each chunk kind (INST, PROP, PRNT, META, SSTR, END) decoding the payload of an encoded chunk yields the chunk, and consumes the whole payload.", "quantifier": "every chunk with consistent lengths below 2^32", "why_tests_cant": "The domain is unbounded (or astronomically large); tests sample it.", "anchors": ["rbxl/model.go: chunkInstance, chunkProperty, chunkParent, chunkMeta, chunkSharedStrings, chunkEnd"]}
{"id": "C08", "title": "Chunk framing and file framing round-trip", "statement": "Writing a sequence of chunks (each compressed or not) after the file header and reading the stream back yields the same header counts, chunk signatures, payloads and compression flags up to and including the END chunk.", "quantifier": "every list of chunks, every payload, every lossless compressor", "why_tests_cant": "The domain is unbounded (or astronomically large); tests sample it.", "anchors": ["rbxl/model.go: rawChunk.Decode, rawChunk.WriteTo", "rbxl/encoder.go", "rbxl/decoder.go"]}
{"id": "C09", "title": "Decompress preserves content", "statement": "Decoder.Decompress writes a file with the same header, and the same chunks (signature and payload) in the same order, none compressed; running it again changes nothing.", "quantifier": "every well-framed input file", "why_tests_cant": "Unbounded streams of chunks.", "anchors": ["rbxl/decoder.go: Decompress"]}
{"id": "C10", "title": "Decoding a decompressed file gives the same result", "statement": "Decode applied to the output of Decompress produces the same root, error and warnings as Decode on the original input (for inputs that Decompress accepts), except that the warnings about non-zero reserved bytes and about a compressed END chunk, both of which Decompress normalises away, disappear.", "quantifier": "every input file", "why_tests_cant": "The domain is unbounded (or astronomically large); tests sample it.", "anchors": ["rbxl/decoder.go: Decode, Decompress"]}
{"id": "C11", "title": "Binary encode then decode reproduces the instance tree", "statement": "Decoding an encoded Root yields a Root whose instance forest has the same shape and child order, and the same ClassName at each node.", "quantifier": "every finite forest of instances (any depth, breadth, classes)", "why_tests_cant": "Every tree shape; ordering interplay of class grouping, ids and parent links.", "anchors": ["rbxl/codec.go: robloxCodec.Encode, Decode"]}
{"id": "C12", "title": "Binary encode then decode preserves property values", "statement": "After decoding an encoded Root each instance has, for every property name used by its class with a consistent type, the value that was set on it (up to documented normalisation), and no other properties.", "quantifier": "every forest, every assignment of properties", "why_tests_cant": "The domain is unbounded (or astronomically large); tests sample it.", "anchors": ["rbxl/codec.go: Encode, Decode, encodeValue, decodeValue"]}
{"id": "C13", "title": "References survive the binary format", "statement": "A Reference property pointing to an instance in the tree points, after decode, to the corresponding instance; nil and references to instances outside the tree decode to nil.", "quantifier": "every forest and every reference graph on it", "why_tests_cant": "All graphs.", "anchors": ["rbxl/codec.go: encodeValue/decodeValue Reference"]}
{"id": "C14", "title": "Shared strings are deduplicated and preserved", "statement": "Equal shared strings are stored once in the SSTR chunk, distinct ones separately, and every SharedString property decodes to the original content.", "quantifier": "every assignment of shared strings (hash collision-free)", "why_tests_cant": "The domain is unbounded (or astronomically large); tests sample it.", "anchors": ["rbxl/codec.go: Encode (SSTR), Decode"]}
{"id": "C15", "title": "Missing properties get defaults; mixed types drop the property", "statement": "If an instance lacks a property another instance of its class has, it is decoded with the zero value of that type; if the instances of a class disagree about the type of a property the property is dropped for all of them and the rest of the file is unaffected.", "quantifier": "every class group", "why_tests_cant": "The domain is unbounded (or astronomically large); tests sample it.", "anchors": ["rbxl/codec.go: Encode property loop"]}
{"id": "C16", "title": "Mode only affects services and unique ids", "statement": "IsService is kept when encoding and decoding a Place and is false for a Model; UniqueId properties are written only for Place; otherwise Place and Model give the same chunks.", "quantifier": "every root, both modes", "why_tests_cant": "The domain is unbounded (or astronomically large); tests sample it.", "anchors": ["rbxl/codec.go: Encode", "rbxl/encoder.go: Mode"]}
{"id": "C17", "title": "Binary encoding is deterministic", "statement": "Encoding the same Root always produces the same bytes, independent of Go map iteration order.", "quantifier": "every root and every map iteration order", "why_tests_cant": "Map iteration order is randomised; a passing test says nothing about other orders.", "anchors": ["rbxl/codec.go: sortMetaData, sort props/classes", "rbxl/model.go"]}
{"id": "C18", "title": "Metadata round-trips", "statement": "Decoding an encoded Root yields the same metadata map.", "quantifier": "every metadata map", "why_tests_cant": "The domain is unbounded (or astronomically large); tests sample it.", "anchors": ["rbxl/codec.go: META", "rbxl/model.go: chunkMeta"]}
{"id": "C19", "title": "Binary encoding never panics", "statement": "Encode returns a result or an error for every Root built from tree-shaped instances; it does not panic.", "quantifier": "every Root", "why_tests_cant": "The domain is unbounded (or astronomically large); tests sample it.", "anchors": ["rbxl/codec.go: Encode"]}
{"id": "C20", "title": "Decoder rejects invalid identifiers", "statement": "Decode returns an error when an INST chunk repeats an instance id or class id, or uses one outside the counts of the header, when a PROP array does not have one value per instance of its class, or when a PRNT chunk has an unknown version, unequal lengths or a child id out of range. When it succeeds, the instances created are exactly the declared ones and no root, child or Reference points anywhere else.", "quantifier": "every sequence of decoded chunks", "why_tests_cant": "Adversarial inputs.", "anchors": ["rbxl/codec.go: Decode"]}
{"id": "C21", "title": "Binary decoding never panics", "statement": "Decode returns a result or an error for every byte stream.", "quantifier": "every byte stream", "why_tests_cant": "Adversarial inputs.", "anchors": ["rbxl/decoder.go", "rbxl/codec.go", "rbxl/arrays.go", "rbxl/values.go"]}
{"id": "C22", "title": "Signature and version dispatch", "statement": "A stream starting with the binary marker and version 0 is decoded as binary; one starting with the legacy '<roblox' signature but not the binary marker is handed, byte-for-byte complete, to the XML decoder (or rejected with NoXML); any other start or version is rejected with an error; non-zero reserved bytes only warn.", "quantifier": "every byte stream", "why_tests_cant": "The domain is unbounded (or astronomically large); tests sample it.", "anchors": ["rbxl/decoder.go: Decode, decode", "rbxl/format.go"]}
{"id": "C23", "title": "Unknown chunks are ignored with a warning", "statement": "Inserting a chunk with an unknown signature anywhere before END does not change the decoded Root; it only adds a warning.", "quantifier": "every file, every position, every unknown signature and payload", "why_tests_cant": "The domain is unbounded (or astronomically large); tests sample it.", "anchors": ["rbxl/decoder.go: decodeChunks", "rbxl/codec.go: Decode"]}
{"id": "C24", "title": "A malformed chunk is skipped with a warning", "statement": "A chunk whose payload cannot be parsed is reported as a warning and treated as absent by the remaining decode.", "quantifier": "every file with malformed chunks", "why_tests_cant": "The domain is unbounded (or astronomically large); tests sample it.", "anchors": ["rbxl/decoder.go", "rbxl/errors.go: ChunkError"]}
{"id": "C25", "title": "Bytes after the END chunk do not matter", "statement": "Appending any bytes after the END chunk of a stream does not change the decoded Root.", "quantifier": "every file, every suffix", "why_tests_cant": "The domain is unbounded (or astronomically large); tests sample it.", "anchors": ["rbxl/decoder.go"]}
{"id": "C26", "title": "CFrame rotation ids", "statement": "A rotation is written as a one-byte id exactly when it is one of the 24 axis-aligned rotations, and decoding the id gives back that rotation; any other rotation is written in full and decodes to itself. The table of ids is the matrix generated from the pair of normal ids.", "quantifier": "all rotation matrices, all 256 ids", "why_tests_cant": "The matrix domain is 2^288.", "anchors": ["rbxl/values.go: valueCFrame", "rbxl/cframe.go: cframeSpecialMatrix, cframeSpecialNumber", "rbxl/arrays.go: arrayCFrame"]}
{"id": "C27", "title": "Instance.Copy is a deep copy", "statement": "Copying an instance returns a tree of freshly allocated instances of the same shape with equal ClassName, IsService and property values; the source tree keeps its structure, class names and properties, so mutating one does not affect the other; only References of source instances may change.", "quantifier": "every instance tree and heap", "why_tests_cant": "Every tree shape and every sharing pattern.", "anchors": ["file.go: Instance.Copy, Root.Copy", "values.go: Copy"]}
{"id": "C28", "title": "Copy retargets internal references", "statement": "A Reference property that points inside the copied tree points, in the copy, to the copied counterpart; a reference that points outside still points to the same outside instance.", "quantifier": "every tree and every reference graph", "why_tests_cant": "All graphs.", "anchors": ["file.go: Instance.Copy", "ref.go"]}
{"id": "C29", "title": "References.Get assigns unique reference strings", "statement": "Over any sequence of Get calls on one References, each instance obtains a non-empty reference string, two different instances never obtain the same one, and a second call for an instance returns the same string.", "quantifier": "every history of calls and every outcome of the random generator", "why_tests_cant": "Histories are unbounded.", "anchors": ["ref.go: References.Get, GenerateReference"]}
{"id": "C30", "title": "Root.Copy copies the whole root", "statement": "Root.Copy yields a root with copies of all instances and the same metadata, sharing nothing with the original.", "quantifier": "every root", "why_tests_cant": "The domain is unbounded (or astronomically large); tests sample it.", "anchors": ["file.go: Root.Copy"]}
{"id": "C31", "title": "Value.Copy returns an equal independent value", "statement": "For every value type Copy returns an equal value and later mutation of the copy's bytes leaves the original unchanged.", "quantifier": "every value of every type", "why_tests_cant": "The domain is unbounded (or astronomically large); tests sample it.", "anchors": ["values.go: Copy"]}
{"id": "C32", "title": "Empty references and resolution", "statement": "IsEmptyReference holds exactly for '', 'null' and 'nil'; References.Resolve sets the property to the instance registered for the reference and returns true, or to nil, returning false, when the reference is empty or unknown; no other property or instance changes.", "quantifier": "every string, every reference table", "why_tests_cant": "The domain is unbounded (or astronomically large); tests sample it.", "anchors": ["ref.go: IsEmptyReference, References.Resolve"]}
{"id": "C33", "title": "GenerateReference output format", "statement": "GenerateReference always returns 'RBX' followed by 32 upper-case hexadecimal digits encoding a version-4 variant-1 UUID, distinct UUIDs giving distinct references.", "quantifier": "every outcome of the random source", "why_tests_cant": "2^122 outcomes.", "anchors": ["ref.go: GenerateReference"]}
{"id": "C34", "title": "Type names round-trip", "statement": "TypeFromString(t.String()) = t for every valid Type, TypeFromString is Invalid for any other string, NewValue(t) has type t for every valid type and is nil otherwise.", "quantifier": "all types, all strings", "why_tests_cant": "All strings.", "anchors": ["values.go: Type, typeStrings, TypeFromString, NewValue, valueGenerators"]}
{"id": "C35", "title": "UniqueId text form", "statement": "The text form of a UniqueId is 32 lower-case hex digits and distinct ids have distinct texts; the XML decoder reads it back to the same id.", "quantifier": "all 2^128 ids", "why_tests_cant": "The domain is unbounded (or astronomically large); tests sample it.", "anchors": ["values.go: ValueUniqueId.String", "rbxlx/codec.go: UniqueId"]}
{"id": "C36", "title": "Font weight and style names", "statement": "FontWeightFromString/FontStyleFromString invert String on all valid values and reject all other strings.", "quantifier": "all weights/styles, all strings", "why_tests_cant": "The domain is unbounded (or astronomically large); tests sample it.", "anchors": ["values.go: FontWeight, FontStyle"]}
{"id": "C37", "title": "Error aggregation", "statement": "Errors.Append keeps every non-nil error in order exactly once; Union does so too and flattens its arguments that are lists of errors by one level; Return is nil exactly when the list is empty, and the error message lists every error in order.", "quantifier": "every nesting and sequence of errors", "why_tests_cant": "The domain is unbounded (or astronomically large); tests sample it.", "anchors": ["errors/errors.go"]}
{"id": "C38", "title": "XML text survives escaping", "statement": "Escaping any string as XML text or attribute value and parsing it back yields the string, with line ends normalised as XML requires (CR LF and CR become LF, except in the leading whitespace of a text); a string without carriage returns is unchanged.", "quantifier": "every byte string", "why_tests_cant": "The domain is unbounded (or astronomically large); tests sample it.", "anchors": ["rbxlx/document.go: escapeString, text parsing"]}
{"id": "C39", "title": "XML documents round-trip", "statement": "Writing a Document and reading it back yields the same tags, attributes and text.", "quantifier": "every document tree with valid names", "why_tests_cant": "The domain is unbounded (or astronomically large); tests sample it.", "anchors": ["rbxlx/document.go: Document.WriteTo, ReadFrom"]}
{"id": "C40", "title": "XML attributes", "statement": "AttrValue returns the value most recently set with SetAttrValue, other attributes being unaffected.", "quantifier": "every tag, every sequence of settings", "why_tests_cant": "The domain is unbounded (or astronomically large); tests sample it.", "anchors": ["rbxlx/document.go: AttrValue, SetAttrValue"]}
{"id": "C41", "title": "XML output is accepted by the XML parser", "statement": "The bytes produced by encoding any Root as XML are accepted by the package's own parser.", "quantifier": "every Root", "why_tests_cant": "The domain is unbounded (or astronomically large); tests sample it.", "anchors": ["rbxlx/codec.go", "rbxlx/document.go"]}
{"id": "C42", "title": "ProtectedString and CDATA content round-trips", "statement": "String-like content containing any bytes, including ']]>', round-trips through the XML format.", "quantifier": "every string", "why_tests_cant": "The domain is unbounded (or astronomically large); tests sample it.", "anchors": ["rbxlx/codec.go: encodeContent", "rbxlx/document.go: CData"]}
{"id": "C43", "title": "Base64 with line wrapping round-trips", "statement": "BinaryString and SharedString content encodes to base64 lines of at most 72 columns and decodes to the same bytes.", "quantifier": "every byte string", "why_tests_cant": "The domain is unbounded (or astronomically large); tests sample it.", "anchors": ["rbxlx/codec.go: BinaryString, SharedString, lineSplit, wrapWriter"]}
{"id": "C44", "title": "XML integers round-trip", "statement": "Every Int, Int64, Token, BrickColor, Vector3int16, Vector2int16, Color3uint8, Faces, Axes value round-trips through XML text.", "quantifier": "all integer values", "why_tests_cant": "The domain is unbounded (or astronomically large); tests sample it.", "anchors": ["rbxlx/codec.go: getTagValue, encodeProperty"]}
{"id": "C45", "title": "XML composite values round-trip", "statement": "UDim, UDim2, Ray, Vector2, Vector3, CFrame, Rect2D, PhysicalProperties, NumberRange round-trip through XML with every component in its own place.", "quantifier": "every value (given a float printer that round-trips)", "why_tests_cant": "The domain is unbounded (or astronomically large); tests sample it.", "anchors": ["rbxlx/codec.go"]}
{"id": "C46", "title": "XML type tags are canonical", "statement": "The tag written for a value's type is one the decoder maps back to that type; tag matching is case-insensitive; a decoded value has the type its tag stands for.", "quantifier": "all types, all tag spellings", "why_tests_cant": "The domain is unbounded (or astronomically large); tests sample it.", "anchors": ["rbxlx/codec.go: GetCanonType, GetCanonTag, getProperty, encodeProperty"]}
{"id": "C47", "title": "XML references resolve regardless of order", "statement": "A Reference property resolves to the instance with that referent wherever it is located in the document (before or after), and to nil when empty.", "quantifier": "every document", "why_tests_cant": "The domain is unbounded (or astronomically large); tests sample it.", "anchors": ["rbxlx/codec.go: Decode propRefs"]}
{"id": "C48", "title": "XML encode then decode reproduces the tree", "statement": "Decoding the XML encoding of a Root yields the same forest shape, class names, and references.", "quantifier": "every forest", "why_tests_cant": "The domain is unbounded (or astronomically large); tests sample it.", "anchors": ["rbxlx/codec.go"]}
{"id": "C49", "title": "XML shared strings", "statement": "Each SharedString property decodes to the original content; each distinct content is written once.", "quantifier": "every assignment of shared strings", "why_tests_cant": "The domain is unbounded (or astronomically large); tests sample it.", "anchors": ["rbxlx/codec.go: SharedStrings"]}
{"id": "C50", "title": "DiscardInvalidProperties", "statement": "With DiscardInvalidProperties a property whose value cannot be read is dropped, everything else being decoded as if it was not there; without it, it is decoded to the zero value of its type; valid properties are unaffected by the setting.", "quantifier": "every document", "why_tests_cant": "The domain is unbounded (or astronomically large); tests sample it.", "anchors": ["rbxlx/codec.go: getItems, getProperty, getValue"]}
{"id": "C51", "title": "JSON values round-trip", "statement": "ValueFromJSONInterface(type, ValueToJSONInterface(v)) = v for every value type.", "quantifier": "every value", "why_tests_cant": "The domain is unbounded (or astronomically large); tests sample it.", "anchors": ["json/json.go: ValueToJSONInterface, ValueFromJSONInterface"]}
{"id": "C52", "title": "JSON trees round-trip and bad shapes are rejected", "statement": "RootFromJSONInterface of RootToJSONInterface reproduces the tree; an interface without the supported version, or of the wrong shape, is rejected without panicking.", "quantifier": "every tree, every JSON value", "why_tests_cant": "The domain is unbounded (or astronomically large); tests sample it.", "anchors": ["json/json.go"]}
{"id": "C53", "title": "Declarations resolve references independent of order", "statement": "Declared instances form exactly the declared tree; a Reference property resolves to the instance with that declared Ref wherever it occurs; later declarations of a property override earlier ones.", "quantifier": "every declaration tree", "why_tests_cant": "The domain is unbounded (or astronomically large); tests sample it.", "anchors": ["declare/declare.go"]}
{"id": "C54", "title": "Declared values have the declared type", "statement": "For every declared type, normalising any list of Go values yields a value of exactly that type, with the components in their own places.", "quantifier": "every type and every argument list", "why_tests_cant": "The domain is unbounded (or astronomically large); tests sample it.", "anchors": ["declare/type.go"]}
{"id": "C55", "title": "Integers are little-endian and exactly inverted", "statement": "Every fixed-width integer written by the binary format occupies its width in little-endian order (big-endian where interleaved) and reading it back yields the same number.", "quantifier": "all 2^16/2^32/2^64 patterns", "why_tests_cant": "The domain is unbounded (or astronomically large); tests sample it.", "anchors": ["rbxl/values.go: appendUint32, readUint32, le/be"]}
{"id": "C56", "title": "Binary type ids are consistent", "statement": "The type id written for a property decodes to the same binary type; ids outside the table are rejected; the binary type of a value and the value type of a binary type agree.", "quantifier": "all 256 ids, all types", "why_tests_cant": "finite but spread over several switches that must stay in sync", "anchors": ["rbxl/values.go: typeID, newValue, FromValueType, ValueType", "rbxl/codec.go"]}
{"id": "C57", "title": "Decoder statistics", "statement": "In DecoderStats, ChunkTypes counts the chunks read of each signature text, Chunks is the number of chunks read that could be parsed, and InstanceCount and ClassCount equal the counts of the header.", "quantifier": "every stream", "why_tests_cant": "The domain is unbounded (or astronomically large); tests sample it.", "anchors": ["rbxl/decoder.go: DecoderStats"]}
{"id": "C58", "title": "Chunk signature text", "statement": "The text of a chunk signature is its four bytes in file order with non-printable bytes shown as '.'; signatures made of printable bytes have distinct texts, and the known signatures have theirs.", "quantifier": "all 2^32 signatures", "why_tests_cant": "2^32 inputs", "anchors": ["rbxl/model.go: sig"]}
{"id": "C59", "title": "Faces and Axes flags", "statement": "Each of the 6 faces/3 axes is one bit; all flag combinations round-trip in binary and XML.", "quantifier": "all flag combinations and all byte values", "why_tests_cant": "The domain is unbounded (or astronomically large); tests sample it.", "anchors": ["rbxl/values.go: valueFaces, valueAxes", "rbxlx/codec.go"]}
{"id": "C60", "title": "Line wrapping is independent of write boundaries", "statement": "The output of the line-splitting and wrapping writers depends only on the concatenation of the written data, never on how it was split across Write calls, and deleting the newlines gives back the data.", "quantifier": "every sequence of writes", "why_tests_cant": "All splittings.", "anchors": ["rbxlx/codec.go: lineSplit, wrapWriter"]}
{"id": "C61", "title": "The XML parser is total", "statement": "Reading any bytes as an XML document returns a document or an error: it neither panics nor loops, and the unread suffix is a proper part of the input.", "quantifier": "every byte string", "why_tests_cant": "The domain is unbounded (or astronomically large); tests sample it.", "anchors": ["rbxlx/document.go: Document.ReadFrom, decoder"]}
{"id": "C62", "title": "Accepted XML documents have a supported root", "statement": "A document that the XML parser accepts has a root tag named roblox with a version attribute that is a number of at least 4 (unless the document begins with a comment, which then is its root).", "quantifier": "every byte string", "why_tests_cant": "The domain is unbounded (or astronomically large); tests sample it.", "anchors": ["rbxlx/document.go: rootStart check, Document.ReadFrom"]}
{"id": "C63", "title": "The XML decoder does not panic", "statement": "Decoding any bytes as XML returns a tree or an error.", "quantifier": "every byte string", "why_tests_cant": "The domain is unbounded (or astronomically large); tests sample it.", "anchors": ["rbxlx/format.go: Decoder.Decode", "rbxlx/codec.go: Decode, getItems, getProperty, getValue, components.getFrom"]}
{"id": "C64", "title": "XML output is deterministic", "statement": "The bytes written for a Root, and the references given to its instances, do not depend on the iteration order of maps.", "quantifier": "every Root and every iteration order", "why_tests_cant": "Go randomises iteration order; a test sees one order per run.", "anchors": ["rbxlx/codec.go: Encode, encodeProperties, sortedProps"]}
{"id": "C65", "title": "XML encoding returns and leaves the instances alone", "statement": "Encoding a tree as XML returns, and changes nothing of the instances but the references of those that have none or a duplicate one; afterwards each has one that is not empty.", "quantifier": "every tree, every random source that does not repeat itself", "why_tests_cant": "The domain is unbounded (or astronomically large); tests sample it.", "anchors": ["rbxlx/codec.go: encodeInstance", "ref.go: References.Get"]}
{"id": "C66", "title": "XML property values round-trip", "statement": "After encoding as XML and decoding, an instance has exactly the properties it had, with the same values up to the documented precision of numbers and XML line ends.", "quantifier": "every tree, every property value", "why_tests_cant": "The domain is unbounded (or astronomically large); tests sample it.", "anchors": ["rbxlx/codec.go: encodeProperty, getValue"]}
{"id": "C67", "title": "Declared type names are read in any case", "statement": "TypeFromString of the declare package gives a type for every mixture of upper and lower case of its name, the same whatever the iteration order of the table, and Type(0) for any other ASCII string; the names are those of the rbxfile types.", "quantifier": "every string, every type, every iteration order", "why_tests_cant": "The domain is unbounded (or astronomically large); tests sample it.", "anchors": ["declare/type.go: TypeFromString, Type.String"]}
{"id": "C68", "title": "Binary decoding builds what the chunks say", "statement": "For every binary file that Decode accepts: the instances are exactly those declared by the INST chunks, with the class and service mark of their chunk; each has exactly the properties that the PROP chunks of its class give at its position, later chunks overriding earlier ones, references pointing to declared instances; roots and children are the links of the PRNT chunks in order; metadata are the pairs of the META chunks, the last one of a key counting.", "quantifier": "every byte string accepted by the decoder, not only output of the encoder", "why_tests_cant": "The domain is unbounded (or astronomically large); tests sample it.", "anchors": ["rbxl/codec.go: robloxCodec.Decode", "rbxl/decoder.go: decodeChunks"]}
{"id": "C69", "title": "Decoded binary files are trees", "statement": "In every tree returned by the binary decoder no instance occurs twice, and following children from the root ends.", "quantifier": "every byte string accepted by the decoder", "why_tests_cant": "The domain is unbounded (or astronomically large); tests sample it.", "anchors": ["rbxl/codec.go: robloxCodec.Decode, chunkParent"]}
{"id": "C70", "title": "XML decoding builds what the document says", "statement": "For every XML document that Decode accepts: the decoded instances are trees that mirror the Item tags (class, referent, order, nesting); the properties are exactly those the tags in the first Properties tag of the Item say, a reference pointing to the last Item of the document with that referent and a shared string having the content announced for its hash; metadata are those of the Meta tags, the last of a name counting.", "quantifier": "every byte string accepted by the decoder, not only output of the encoder", "why_tests_cant": "The domain is unbounded (or astronomically large); tests sample it.", "anchors": ["rbxlx/codec.go: rdecoder.decode, getItems, getProperty", "ref.go: References.Resolve"]}
{"id": "C71", "title": "Converting XML to binary keeps the tree", "statement": "For every XML document that Decode accepts, the decoded tree can be encoded in the binary format, and decoding the binary file gives the same tree: instances correspond one to one, with the same roots, children, classes, metadata and, up to the normalisations of the binary format, the same property values.", "quantifier": "every byte string accepted by the XML decoder; every map iteration order, compression setting and file kind", "why_tests_cant": "The domain is unbounded (or astronomically large); tests sample it.", "anchors": ["rbxlx/format.go: Decoder.Decode", "rbxl/encoder.go: Encoder.Encode", "rbxl/decoder.go: Decoder.Decode"]}
{"id": "C72", "title": "Converting binary to XML keeps the tree", "statement": "For every binary file that Decode accepts, the decoded tree can be encoded as XML, the result is accepted by the XML parser, and decoding it gives the same tree: the instances that can be reached from the root correspond one to one, with the same roots, children, classes and, up to the normalisations of XML, the same property values.", "quantifier": "every byte string accepted by the binary decoder; every map iteration order, random source and layout", "why_tests_cant": "The domain is unbounded (or astronomically large); tests sample it.", "anchors": ["rbxl/decoder.go: Decoder.Decode", "rbxlx/format.go: Encoder.Encode, Decoder.Decode"]}
{"id": "C73", "title": "XML encoding to a failing writer", "statement": "When a tree is encoded as XML to a writer that may take any part of what it is offered and fail at any call: what is offered is the encoding of the tree, in order and once; success is reported only if all of it has arrived and no call failed; otherwise the error reported is that of the last call made, no earlier call failed and nothing is written after it, and what has arrived is a beginning of the encoding. A tree that is rejected causes no call of the writer.", "quantifier": "every tree, every layout, every writer that keeps the contract of io.Writer, and every point at which it fails", "why_tests_cant": "A test can make a writer fail at a few points only.", "anchors": ["rbxlx/document.go: Document.WriteTo, encoder", "rbxlx/format.go: Encoder.Encode"]}
{"id": "C74", "title": "Binary encoding to a failing writer", "statement": "The same for the binary format: what is offered to the writer is the encoding of the tree; success is reported only if all of it has arrived and no call failed; otherwise the cause of the error is the error of the last call, no earlier call failed, and what has arrived is a beginning of the encoding.", "quantifier": "every tree, every writer that keeps the contract of io.Writer, and every point at which it fails", "why_tests_cant": "A test can make a writer fail at a few points only.", "anchors": ["rbxl/encoder.go: Encoder.Encode, encode, encodeError", "rbxl/model.go: rawChunk.WriteTo"]}
{"id": "C75", "title": "The offset of a failed binary encoding", "statement": "The Offset of the DataError with which the binary encoder reports the failure of a writer is the number of bytes that were written.", "quantifier": "every tree, every writer and every point at which it fails", "why_tests_cant": "A test can make a writer fail at a few points only.", "anchors": ["rbxl/encoder.go: encode, encodeError", "rbxl/errors.go: DataError"]}
{"id": "C76", "title": "Decoding the binary format from any reader", "statement": "Decoder.Decode and Decompress give, for a reader that delivers some bytes in pieces of any size and then io.EOF, exactly what they give for those bytes; for a reader that fails with another error, they never return a tree or call the writer, but report either the error that the bytes themselves give or the error of the reader. The Offset of the DataError is the number of bytes that were taken from the reader.", "quantifier": "every reader that keeps the contract of io.Reader (any division into pieces, empty reads, errors with or after the last piece), every sequence of bytes, and every point at which the reader fails", "why_tests_cant": "A test can divide a few files in a few ways, and make a reader fail at a few points only.", "anchors": ["rbxl/decoder.go: Decoder.Decode, Decompress, decode, decodeChunks, decompressChunks, decodeError", "rbxl/model.go: rawChunk.Decode"]}
{"id": "C77", "title": "Decoding the XML format from any reader", "statement": "Decoder.Decode of the XML format gives, for a reader that delivers some bytes in pieces of any size, exactly what it gives for those bytes: the same tree, or an error; the warnings and the error do not depend on the pieces, or on whether the reader is an io.ByteReader. An error of the reader is reported.", "quantifier": "every io.ByteReader and every io.Reader that makes progress (any division into pieces, empty reads, errors with or after the last piece), every sequence of bytes, and every point at which the reader fails", "why_tests_cant": "A test can divide a few documents in a few ways, and make a reader fail at a few points only.", "anchors": ["rbxlx/format.go: Decoder.Decode", "rbxlx/document.go: documentRoot.ReadFrom, decoder"]}
{"id": "C78", "title": "Line numbers of XML errors and warnings", "statement": "Every syntax error and warning of the XML decoder has the number of a line of the input. An error that is reported before the end of the input does not depend on what follows, and its line is a line of what has been read. Every error of the parser is a syntax error or the error that ended the input.", "quantifier": "every sequence of bytes, valid or not, and every reader that delivers it", "why_tests_cant": "A test can check the line for a few malformed documents only.", "anchors": ["rbxlx/document.go: decoder.getc, decoder.ungetc, decoder.syntaxError, decoder.tagError, decoder.ignoreStartTag, decoder.decodeTag"]}
{"id": "C79", "title": "The XML grammar", "statement": "The XML parser accepts exactly the files that consist of whitespace, a node and a suffix in a stated grammar (elements with attributes, one CDATA section, text with line ends, named and numeric entities, comments, and malformed start tags, whose elements are dropped), and what it returns is what the node means: every reference replaced by its byte, line ends normalised, attributes, text and sub-elements in order. Every other file is an error. The grammar is not ambiguous, and decoding a file is decoding the tag it means.", "quantifier": "every sequence of bytes, and every document of the grammar, of any size and depth", "why_tests_cant": "The grammar has unboundedly many documents, and the claim that nothing else is accepted is about all other inputs.", "anchors": ["rbxlx/document.go: documentRoot.ReadFrom, decoder.decodeTag, decoder.decodeStartTag, decoder.decodeEndTag, decoder.decodeCData, decoder.decodeComment, decoder.text, decoder.readName, isNameByte, entity"]}
{"id": "C80", "title": "What the tag of a property means in the XML format", "statement": "When an XML document is decoded, every tag in Properties is read by a fixed meaning: the name of the tag, in any case, determines the type; the content is the CDATA section if there is one, else the text; integers are decimal numerals with an optional sign, clamped to the range of the type; components are the first subtags of their names, in any order; booleans, styles, tokens, base64, hexadecimal ids, sequences and Content have exactly the listed forms. A tag that says a value yields exactly this value, whether invalid properties are discarded or not, and a tag that says nothing is dropped if they are.", "quantifier": "every tag of a property: every name, attributes, text, CDATA, subtags, and every type of value", "why_tests_cant": "Unit tests cover a few texts per type; that no other text is accepted and each accepted text gives one value is a statement on all tags.", "anchors": ["rbxlx/codec.go:getProperty, getValue, getContent, getComponents, scanFloats, GetCanonType", "rbxlx/codec.go:decodeColor3, decodeUDim, decodeFont, ..."]}
{"id": "C81", "title": "What is dropped is reported in the warnings (XML)", "statement": "When the XML decoder drops something of the document, it says so in its warnings: every Item tag that becomes no instance, every Content with binary data, every property that becomes no value. A decoding without warnings has lost nothing. The encoder drops nothing and gives no warnings.", "quantifier": "every document (byte string) that the parser accepts, both settings of DiscardInvalidProperties; every tree and layout for the encoder", "why_tests_cant": "A test sees the warnings for some documents; that there is one for every dropped tag and none otherwise is a statement on all documents.", "anchors": ["rbxlx/codec.go:getItems, getValue (Content)", "rbxlx/document.go:encodeTag, WriteTo", "rbxlx/format.go:Decode, Encode"]}
{"id": "C82", "title": "The statistics of rbxfile-stat are the counts of the tree", "statement": "For every tree, the statistics that rbxfile-stat computes are exact, whatever the order of iteration over maps: InstanceCount and PropertyCount are the numbers of instances and of properties; ClassCount has for each class the number of its instances, and no other entry; TypeCount has for each type the number of properties of this type; OptionalTypeCount has for each type the number of properties that are Optional of this type. LargestProperties lists, in descending order of length and without repetition, the class, name, type and length of properties that have a length: all of them, or 20 such that every one left out is at most as long as every one listed; the lengths listed do not depend on the order of iteration.", "quantifier": "every finite tree of instances with any properties; every order of iteration over every map at every instance; every algorithm of sort.Slice", "why_tests_cant": "The statement is about all trees, and orders of iteration and sort algorithms that a test cannot choose.", "anchors": ["cmd/rbxfile-stat/main.go: walk, Stats.Fill, PropLenCount.MarshalJSON"]}
{"id": "C83", "title": "A dump shows the whole file", "statement": "If every chunk of a binary file can be decoded and no array holds optionals of optionals, Dump writes a text without panicking, and the text determines the file: two such files with the same dump have the same version, class count and instance count, and the same chunks in the same order with the same compression, names, ids, types and values (up to the bits of a NaN and fields that the format does not store).", "quantifier": "all pairs of byte strings that decode in this way, all arrays and values in them", "why_tests_cant": "The text mixes quoted strings, hex rows and numbers; that no two different contents ever give the same text is a statement on all pairs of files.", "anchors": ["rbxl/dump.go:Decoder.Dump", "rbxl/dump.go:dumpChunk", "rbxl/dump.go:dumpString", "rbxl/dump.go:dumpBytes", "rbxl/values.go:value.Dump", "rbxl/arrays.go:arrayOptional.Dump"]}
{"id": "C84", "title": "Dump reports what went wrong and delivers its text", "statement": "Dump has the warnings of Decode on the same bytes, fails with the same error if the bytes cannot be decoded, and with ErrXML for XML. The whole text arrives at the writer, or the error of the writer is returned; each component of a value is shown under its own name; Dump never panics on a file that was decoded.", "quantifier": "all byte strings; all writers and all ways to cut the text into calls", "why_tests_cant": "Writers may fail at any call, and the text is cut by a buffer; the property is on all of them.", "anchors": ["rbxl/dump.go:Decoder.Dump", "rbxl/values.go:valueUDim2.Dump", "rbxl/arrays.go:arrayOptional.Dump"]}
{"id": "C85", "title": "The text of a value shows the value", "statement": "String of a value shows it: two values of the same type have the same text only if they are the same value (up to the bits of a NaN), and equal texts come from what is shown only; the text of a Float or Double is read back by strconv.ParseFloat as the number. (The code hides some fields: the cached face and unknown weights or styles of fonts, the fields of physical properties that are not custom; and the texts of nil references and absent optionals can also be those of other values.)", "quantifier": "all values of all types; all instances with their reference strings", "why_tests_cant": "the values are unbounded (texts, sequences, 2^32 and 2^64 floats); whether two different composite values collide depends on where separators can appear in numbers and texts", "anchors": ["values.go: String methods of all Value types", "values.go: joinstr", "values.go: FontWeight.String", "values.go: FontStyle.String"]}
{"id": "C86", "title": "What the binary decoder drops, it reports", "statement": "The warnings of Decode on a binary file are exactly: one on reserved header bytes that are not zero; one for each chunk of unknown kind, each chunk whose content could not be decoded, and each oddity of the END chunk; one for each property chunk whose values were not understood and one for each parent link whose child is not declared; in the order of the chunks. So a file that decodes without warnings loses nothing. (The code also drops, without a warning, instances whose parent does not exist or that have no parent link.)", "quantifier": "all binary files, compressed in any way, and all outcomes of decoding", "why_tests_cant": "which warnings are due depends on the whole list of chunks: on the instances declared by earlier chunks, and on which chunks decode; no finite set of files covers the combinations", "anchors": ["rbxl/decoder.go: Decoder.decode", "rbxl/decoder.go: Decoder.Decode", "rbxl/codec.go: robloxCodec.Decode"]}
{"id": "C87", "title": "What the commands do with their input and output", "statement": "Each of the commands rbxfile-dcomp, rbxfile-dump and rbxfile-stat reads the file named by its first argument (standard input if it is missing or \"-\"), writes its result to the file named by the second one (standard output if it is missing or \"-\"), leaves all other files alone, and reports warnings and errors on standard error. If the input cannot be opened, the output is neither created nor emptied. rbxfile-dcomp writes the decompressed file. (Expected, but not so in the code: the message of an error is reported, a file can be processed in place, and no statistics are written for a file that cannot be decoded.)", "quantifier": "all arguments, all contents of the files, all decisions of the operating system about opening, creating and syncing", "why_tests_cant": "it relates the effects of whole runs, for all combinations of arguments, file contents and failures", "anchors": ["cmd/rbxfile-dcomp/main.go: main", "cmd/rbxfile-dump/main.go: main", "cmd/rbxfile-stat/main.go: main", "rbxl/decoder.go: Decoder.Decompress", "rbxl/dump.go: Decoder.Dump"]}
{"id": "C88", "title": "What the binary encoder leaves out, it reports", "statement": "A property of an instance that is not in the encoded file, because the instances of a class disagree about its type, is reported by a warning that names the class and the property; properties that are written are not reported. (Expected, but not so in the code: the warnings are collected by the codec but not returned by the encoder.)", "quantifier": "all trees, both modes, all iteration orders of maps and sorting algorithms", "why_tests_cant": "it relates warnings to the properties lost by an encoding and decoding of arbitrary trees", "anchors": ["rbxl/codec.go: robloxCodec.Encode", "rbxl/encoder.go: Encoder.Encode", "rbxl/encoder.go: Encoder.encode"]}
{"id": "C89", "title": "An error tells where it occurred and what caused it", "statement": "The message of an error that wraps another one ends with the message of its cause, unchanged, and what stands before depends only on what the error adds; from the message alone one can tell, through any number of layers, of which of the types each layer is, its offset (if not negative), its position (likewise), the printed signature of the chunk or the type of the value. The message of an error that wraps nothing tells all its fields. Unwrapping gives the cause. Asking for the message panics exactly if an error on a value or a chunk has no cause or a list has a nil error, at a place that is not below an error on an element of an array.", "quantifier": "all errors of the types of rbxl, rbxlx and errors, with any fields, nested to any depth", "why_tests_cant": "errors nest to any depth, and offsets, positions, signatures and causes are arbitrary", "anchors": ["rbxl/errors.go: ValueError, XMLError, CodecError, DataError, ChunkError, errReserve, errParentArray, errUnknownType, errUnrecognizedVersion", "rbxl/arrays.go: indexError, errExpectedMoreBytes, errInvalidType", "rbxl/codec.go: errBounds", "rbxl/values.go: buflenError", "rbxlx/document.go: syntaxError", "errors/errors.go: Errors.Error"]}
{"id": "C90", "title": "Saving a decoded file again changes nothing", "statement": "When a tree has been written as a binary file, decoding that file and writing the decoded tree gives the same bytes again, whatever the order in which maps are iterated; so a file that was loaded and saved is not changed by loading and saving it again.", "quantifier": "all trees that can be written (any number of instances, any values, references, shared strings, missing properties), both kinds of file, with and without compression, all iteration orders of maps and all sorting algorithms in both runs", "why_tests_cant": "trees, values, iteration orders and sorting algorithms are unbounded, and two encodings and a decoding are composed", "anchors": ["rbxl/codec.go: robloxCodec.Encode, robloxCodec.Decode", "rbxl/encoder.go: Encoder.Encode", "rbxl/decoder.go: Decoder.Decode", "rbxl/arrays.go: refArray, interleave, ValuesToBytes"]}
{"id": "C91", "title": "A binary file depends on the tree, not on where it is stored", "statement": "Two trees that have the same shape, classes, flags and property values, references pointing to corresponding instances (or out of the tree), are written as the same binary file, or neither can be written; the Reference strings of the instances do not matter. In particular a tree and its copy are written as the same file.", "quantifier": "all pairs of trees that differ only in the identity of the instances, all iteration orders and sorting algorithms, both kinds of file, any compression", "why_tests_cant": "pairs of trees and correspondences between them are unbounded, and so is the order of maps", "anchors": ["rbxl/codec.go: robloxCodec.Encode", "rbxl/encoder.go: Encoder.Encode", "file.go: Root.Copy, Instance.Copy"]}
{"id": "C92", "title": "Saving a decoded XML file again changes nothing", "statement": "A tree is written as an XML file, the file is decoded, and the decoded tree is written with the same settings: the second file equals the first, byte by byte, whatever the random references drawn, the order of maps and the sorting algorithm. Whatever the values, the file written from a tree that was decoded from a written file is never changed by decoding and writing it.", "quantifier": "all trees, layouts and settings, all random sources, iteration orders and sorting algorithms, all numbers", "why_tests_cant": "trees, texts and numbers are unbounded (there are 2^64 doubles, of which two fail), and random references and the order of maps vary between runs", "anchors": ["rbxlx/codec.go: robloxCodec.Encode, robloxCodec.Decode, encodeFloat, encodeDouble", "rbxlx/document.go: documentRoot.WriteTo, documentRoot.ReadFrom", "rbxlx/encoder.go: Encoder.Encode", "rbxlx/decoder.go: Decoder.Decode"]}
{"id": "C93", "title": "An XML file depends on the tree", "statement": "Two trees, whose instances and the instances they refer to have different References, are the same in classes, References, properties, children and metadata: both are written, as the same XML file, whatever the random source, the order of maps and the sorting algorithm, and no instance is changed. In particular such a tree is written as the same file every time, and a tree that has been copied and its copy are written as the same file.", "quantifier": "all trees and layouts, all random sources, iteration orders and sorting algorithms, all orders in which instances are allocated", "why_tests_cant": "trees are unbounded, and random references, addresses and the order of maps vary between runs", "anchors": ["rbxlx/codec.go: robloxCodec.Encode, rencoder.encodeInstance, rencoder.encodeProperties, rencoder.encodeProperty", "rbxfile.go: References.Get, Instance.Copy, Root.Copy", "rbxlx/encoder.go: Encoder.Encode"]}
{"id": "C94", "title": "The layout of a binary file", "statement": "The file that the binary encoder writes for a tree has the layout of the format: the header counts the classes and the instances; then come, in this order, the metadata if there is any, the shared strings if there are any (each once), one INST chunk for each class, ordered by name and with consecutive ids, one PROP chunk for each property that is written, ordered by class and name, with one element for every instance of the class and the type of the values, the PRNT chunk and the END chunk with its closing tag, which is never compressed. Instances are numbered in the order of the tree; every number is in exactly one INST chunk; the PRNT chunk has every instance exactly once with its parent, before its parent.", "quantifier": "all trees of fewer than 2^31 instances, all modes, iteration orders and sorting algorithms", "why_tests_cant": "trees are unbounded, and the order of maps varies between runs", "anchors": ["rbxl/codec.go: robloxCodec.Encode", "rbxl/encoder.go: Encoder.Encode", "rbxl/model.go: formatModel"]}
{"id": "C95", "title": "A declared tree can be saved", "statement": "Whatever is declared with the declare package, the root that Declare returns is a tree of new instances, in the declared order, that both encoders accept; saving it in either format and reading the file gives the declared tree: the declared class names, children, metadata, and for each property the value that the documentation of the declaration says, up to what the format does not keep.", "quantifier": "all declarations, all iteration orders, all modes of the encoders", "why_tests_cant": "declarations are unbounded trees of arbitrary values of many types, combined with every mode of the encoders", "anchors": ["declare/declare.go: Root.Declare", "declare/type.go: Type.value", "rbxl/encoder.go: Encoder.Encode", "rbxlx/encoder.go: Encoder.Encode"]}
{"id": "C96", "title": "The layout of an XML file", "statement": "The XML encoder writes one document: a root element `roblox` with version 4 and the attributes Roblox expects; in it, in this order, a Meta element for each entry of the metadata, ordered by key, two External elements, an Item element for each instance, nested like the tree, and, if a shared string occurs, a SharedStrings element with each string once, ordered by hash. An Item has the class and the reference of its instance as attributes, contains first the properties, ordered by name, each in an element named after the type of the value with the components of the value as elements, then the children in order. References are different from each other and not empty; a property of type Reference has the reference of its instance as text, one of type SharedString the hash of the string. The options of the encoder leave out references, External elements or metadata and nothing else.", "quantifier": "all trees whose ProtectedStrings do not contain \"]]>\" (see C41), all values, all options of the encoder, all random sources and iteration orders, all layouts of whitespace", "why_tests_cant": "the file depends on the whole tree: names, classes, references, nesting and strings are unbounded; order depends on map iteration", "anchors": ["rbxlx/codec.go: rencoder", "rbxlx/codec.go: encodeProperty", "rbxlx/codec.go: GetCanonTag", "rbxlx/document.go: newRoot, newItem", "rbxlx/format.go: Encoder.Encode"]}
{"id": "C97", "title": "Structures of instances that are not trees", "statement": "What happens to a Root in which an instance occurs several times, is below itself, or has a nil child. The binary encoder panics on exactly those structures that are no trees (besides C19), unless all instances at the top are nil, in which case it writes the file of an empty root. The XML encoder, the conversion to JSON, Root.Copy and Instance.Copy return exactly if the structure is finite, that is without nil instances and cycles; an instance that occurs several times is written, converted or copied each time it occurs, and an XML file has the layout of C96 for all occurrences.", "quantifier": "all structures of instances, also with shared, nil and cyclic children; all values, random sources that do not repeat themselves, iteration orders and options", "why_tests_cant": "structures are unbounded in size and depth; non-termination cannot be observed by a test", "anchors": ["rbxl/codec.go: Encode, addInstance, recInst", "rbxlx/codec.go: encodeInstance", "json/json.go: InstanceToJSONInterface", "file.go: Instance.copy, Root.Copy, Instance.Copy"]}
{"id": "C98", "title": "What is read from JSON", "statement": "What RootFromJSONInterface returns, if it accepts its argument. Each object with a class name in the list of instances yields an instance at the top, with the class name, the reference, the flag and exactly the properties described, provided that no two of these objects have the same reference; a property of type Reference gets the instance with that reference, wherever it is described; no other instance is more than blank. Whether references differ or not, the result is finite, no instance has children, property names are distinct and references lead to existing instances, so that the XML encoder always returns. The instances at the top are trees just if no two objects have the same reference; the binary encoder panics just if two have, or on badly typed Optionals as in C19.", "quantifier": "all JSON values, iteration orders, results of converting numbers out of range; all layouts, random sources that do not repeat themselves, hash functions and options", "why_tests_cant": "JSON values are unbounded; references may occur before and after the object they belong to", "anchors": ["json/json.go: RootFromJSONInterface, InstanceFromJSONInterface, ValueFromJSONInterface", "ref.go: Resolve, IsEmptyReference"]}
{"id": "C99", "title": "The bytes of a binary file", "statement": "Which bytes a binary file consists of, stated apart from the code: the signature and header, the frames of chunks with their lengths, and for every kind of chunk and every type of value the bytes of its content (order of bytes, zigzag numbers, rotated floats, interleaved arrays, accumulated references, numbers of types). A tree is encoded to such a file, with chunks that describe the tree. A model of chunks that can be read is written as exactly these bytes. Every file with these bytes, whoever wrote it, is read as its chunks, and decoded to the tree it describes.", "quantifier": "all trees, models of chunks, files, compressors without loss, iteration orders, hash functions without collisions on the tree", "why_tests_cant": "trees and files are unbounded, and a test of a round trip does not see an error that is made both ways", "anchors": ["rbxl/model.go: FormatModel.WriteTo, FormatModel.ReadFrom, chunk encoders", "rbxl/arrays.go: valuesToBytes", "rbxl/values.go: Bytes, FromBytes", "rbxl/codec.go: robloxCodec.Encode"]}
{"id": "C100", "title": "The JSON form of instances and values", "statement": "What is written to JSON, stated apart from the code: a root is an object with the version 0 and the list of its instances; an instance is an object with its class name, reference, service flag, properties and children; a property is an object with the name of its type and its value; and every type of value has its own form (literal keys and names of types). Writing alters nothing but empty or duplicate references. When a value is read, the JSON that is accepted for each type and the value it stands for are exactly those of the specification.", "quantifier": "all structures of instances, values of every type, JSON values, names of types, sources of random references, iteration orders, treatments of numbers out of range", "why_tests_cant": "trees and JSON values are unbounded, and a test of a round trip does not see a wrong key or name of a type that is used both ways", "anchors": ["json/json.go: RootToJSONInterface, InstanceToJSONInterface, ValueToJSONInterface, ValueFromJSONInterface", "values.go: Type.String, TypeFromString"]}
{"id": "C101", "title": "The text of an XML file", "statement": "Which characters the XML file of a tree consists of, stated apart from the code: the prefix; the root element with its attributes; for the metadata, ordered by key, the External elements, each instance and, ordered by hash, the shared strings, an element in its own line, indented by its depth; the suffix; or the same elements without the root. An instance has its class and reference as attributes, and contains its properties, ordered by name, then its children. For every type of value the names of the elements and their texts are given: decimal numbers, nine or six significant digits and at least three digits of an exponent, flags, Base64 in lines of 72 characters, hexadecimal digits. Special characters are written by name, others that cannot be printed and leading whitespace by number.", "quantifier": "all structures of instances that can be written, layouts and options, iteration orders, sources of random references, hash functions", "why_tests_cant": "trees and texts are unbounded, and a test of a round trip does not see an error that is made both ways", "anchors": ["rbxlx/codec.go: rencoder.encode, encodeInstance, encodeProperties, encodeProperty, fixFloatExp, lineSplit, wrapWriter", "rbxlx/document.go: documentRoot.WriteTo, encodeTag, writeIndent, escapeString", "rbxlx/format.go: Encoder.Encode"]}
{"id": "C102", "title": "Saving again writes the same file", "statement": "A structure of instances that has been saved as XML or as JSON, and that is not changed afterwards, is saved again as the same file, and the second saving changes nothing; this holds whatever the References were before the first saving (empty, doubled), and whatever the sources of random References and the orders of maps are in both. After the first saving the instances, and those that properties refer to, have different References, none of them empty.", "quantifier": "all structures of instances (trees for XML; whatever can be saved for JSON), References, settings and layouts, sources of random References, iteration orders", "why_tests_cant": "the second run sees the random References of the first and may visit maps in another order; trees, References and orders are unbounded", "anchors": ["rbxlx/codec.go: rencoder.encode, encodeInstance, encodeProperty", "json/json.go: RootToJSONInterface, InstanceToJSONInterface, ValueToJSONInterface", "ref.go: References.Get"]}
{"id": "C103", "title": "What is decoded is no larger than the file", "statement": "The tree that Decode returns for a binary file (its instances, the texts and keypoints in their properties, their children, the instances at the root and the metadata) is smaller than the file that Decompress makes of the same input, and smaller than the file itself if none of its chunks is compressed. Whatever counts and lengths a header, a chunk or an array claims, there are fewer instances than a quarter of the bytes of the decompressed file. The tree decoded from an XML file is no larger than that file.", "quantifier": "all byte strings that are decoded to a tree, as binary or as XML files, all LZ4 codecs that decompress what they compress, all slack contents of buffers", "why_tests_cant": "hostile counts and lengths range over all 32-bit numbers, in every chunk, and files are unbounded", "anchors": ["rbxl/codec.go: robloxCodec.Decode", "rbxl/decoder.go: Decoder.Decode, Decoder.Decompress", "rbxl/model.go: chunkInstance.Decode, chunkProperty.Decode, chunkParent.Decode", "rbxl/arrays.go: typeArrayFromBytes, refArrayFromBytes", "rbxlx/document.go: decodeTag", "rbxlx/codec.go: rdecoder.decode, getItems, getProperty, getValue"]}
{"id": "C104", "title": "A chunk of a file has no effect beyond what it lists", "statement": "When a chunk other than an INST or the END chunk is removed from a binary file that can be decoded, the file can still be decoded and the tree is the same besides what the chunk lists: a PROP chunk sets no more than the property of its name of the instances of its class; a PRNT chunk adds no more than the children it lists, and moves none; a META chunk sets no more than the metadata it lists; a SSTR chunk supplies no more than the contents of SharedString values. Likewise, when one PROP chunk is replaced with another of the same class and name, only that property changes.", "quantifier": "all byte strings that are decoded to a tree, split at any chunk, whatever follows; all LZ4 codecs that decompress what they compress, all quaternion conversions and slack contents of buffers", "why_tests_cant": "files have any number of chunks in any order with any payloads, and chunks that could not be decoded among them", "anchors": ["rbxl/codec.go: robloxCodec.Decode", "rbxl/decoder.go: Decoder.Decode, Decoder.decodeChunks", "rbxl/model.go: chunkProperty.Decode"]}
{"id": "C105", "title": "A dump shows of a cut chunk what its bytes tell", "statement": "If the payload of a chunk is cut off, so that it cannot be decoded, Dump still shows the chunk: with each field whose bytes are all there as the complete chunk has it, and zeros (empty strings, false) for the others; with as many elements as the complete chunk has when their number is there; and never with a field or an element that the complete chunk does not have.", "quantifier": "all payloads of META, SSTR, INST, PROP, PRNT and END chunks that can be decoded, cut at any position; all classes decoded before; all slack contents of buffers", "why_tests_cant": "a payload can be cut at any of its bytes, and it has any number of strings, ids and elements of any type", "anchors": ["rbxl/decoder.go: Decoder.decodeChunks", "rbxl/model.go: chunkInstance.Decode, chunkProperty.Decode, chunkParent.Decode, chunkMeta.Decode, chunkSharedStrings.Decode", "rbxl/arrays.go: arrayFromBytes, arrayOptional.FromBytes", "rbxl/dump.go: dumpChunk"]}
{"id": "C106", "title": "The order of chunks that have nothing to do with each other does not matter", "statement": "Two adjacent chunks of a file, other than INST chunks and the END chunk, can be swapped if they have nothing to do with each other: the same tree is decoded. META and PRNT chunks can be swapped with each other and with PROP and SSTR chunks; PROP chunks of different names can be swapped, and those of the same name if their classes have no instance in common; PRNT chunks if they list no children of the same parent; META chunks if they have no key in common.", "quantifier": "all files that are decoded to a tree; all places in them; all pairs of adjacent chunks other than INST and END; both modes; all lossless LZ4 codecs and all slack contents of buffers", "why_tests_cant": "a file has any number of chunks in any order, and any contents", "anchors": ["rbxl/decoder.go: Decoder.decodeChunks", "rbxl/codec.go: robloxCodec.Decode"]}
{"id": "C107", "title": "What the XML decoder ignores", "statement": "Two XML files give the same tree (or the same failure) if their documents are the same but for what does not count: in the root and in Items, tags other than Item, Properties, Meta and SharedStrings (comments, External and unknown tags), Items without a class together with what is in them, and Properties tags in the root or after the first of an Item; attributes of Items other than class and referent; properties without a name or of unknown types; attributes, end names and comment marks within properties; the place of Meta and SharedStrings tags among the others.", "quantifier": "all pairs of files that are parsed, whatever the depth of their documents; with and without DiscardInvalidProperties; whether they are decoded to a tree, rejected, or panic", "why_tests_cant": "documents are of any size and depth, and what does not count can be at any place in them", "anchors": ["rbxlx/codec.go: rdecoder.decode, rdecoder.getItems, rdecoder.getProperty, robloxCodec.getFrom", "rbxlx/format.go: Decoder.Decode"]}
{"id": "C108", "title": "The order of properties in an XML file does not matter", "statement": "If an XML file is decoded to a tree, another file is decoded to the same tree (with the same roots, children, classes, references, values and metadata) if its document has the same Items in the same order, each with the same properties in whatever order, before, between or after the Items within it; the same metadata; and the same shared strings. Only the order of several properties of the same name, or of Meta tags of the same name, counts.", "quantifier": "all pairs of files that are parsed, whatever the depth of their documents; with and without DiscardInvalidProperties", "why_tests_cant": "documents are of any size and depth; references and shared strings are resolved after all properties were read, in the order in which they were read", "anchors": ["rbxlx/codec.go: rdecoder.decode, rdecoder.getItems, rdecoder.getProperty", "rbxlx/format.go: Decoder.Decode"]}
{"id": "C109", "title": "An Item of an XML file has no effect beside the instances it describes", "statement": "If some Items of an XML file, at the top or deep inside other Items, are replaced with others, removed, or inserted, the decoded trees are the same beside the instances that these Items describe: the other instances have the same classes, referents, children and properties, in the same order, and the metadata are the same; only a reference to a referent that one of the replaced or new instances has may lead to such an instance. The other file is decoded as well, unless a new Item has a font that makes the decoder panic (as in C63).", "quantifier": "all files that are parsed, all places in them and all lists of Items there; with and without DiscardInvalidProperties", "why_tests_cant": "documents are of any size and depth; all instances share the numbering, the table of referents, and the pending references and shared strings, which are resolved after everything was read", "anchors": ["rbxlx/codec.go: rdecoder.decode, rdecoder.getItems, rdecoder.getProperty", "rbxlx/format.go: Decoder.Decode"]}
{"id": "C110", "title": "The order of the fields of a JSON document does not matter", "statement": "Converting JSON documents that differ only in the order of the fields of their objects has the same outcome, in whatever order Go iterates over its maps: both conversions panic, both reject the document, or both yield the same instances (same identity, class names, references, flags and property values) and the same root. The same holds of single values and of texts given to Decode.", "quantifier": "all documents whose objects have no field twice, of any size and depth, all reorderings of fields at any depth, and all orders of iteration over maps", "why_tests_cant": "Go iterates over maps in random order and the pending references are resolved in the order of that iteration; a test sees one order and one document", "anchors": ["json/json.go: RootFromJSONInterface, InstanceFromJSONInterface, ValueFromJSONInterface, Decode"]}
{"id": "C111", "title": "Converting JSON to XML keeps the instances", "statement": "A JSON document that is accepted and whose descriptions of instances have different references can be encoded as an XML file, which is accepted. Decoding the file gives, in order, one instance for each description: with the class name and without children, with the properties that the description has and no others, and, for the values that XML can store, with the value that is described, up to line ends and digits; a reference leads to the instance of the description with this reference, and to none if there is no such description.", "quantifier": "all JSON documents, all encoder parameters and layouts of whitespace, with and without DiscardInvalidProperties; no carriage returns in names and references, no end of CDATA in ProtectedString, no hash collision", "why_tests_cant": "three packages and all their loops and tables of references are involved; any combination of instances, references, property types and values occurs", "anchors": ["json/json.go: RootFromJSONInterface", "rbxlx/codec.go: rencoder.encode, rdecoder.decode"]}
{"id": "C112", "title": "Converting JSON to binary keeps the instances", "statement": "A JSON document that is accepted and whose descriptions of instances have different references can be encoded as a binary file without compression, unless Optionals make the encoder panic. Decoding the file gives, in order, one instance for each description: with the class name and without children, a service if a place is written and the description says so. A property whose values in the instances of the class have one type is kept, all others are lost; a reference leads to the instance of the description with this reference, and to none if there is no such description.", "quantifier": "all JSON documents, models and places, with and without compression, all map orders and sorters; Optionals of types that are not interleaved, chunks below 4 GiB, no hash collision", "why_tests_cant": "three packages and all their loops and tables of references are involved; any combination of classes, references, property types and values occurs, in any map order", "anchors": ["json/json.go: RootFromJSONInterface", "rbxl/codec.go: robloxCodec.Encode, robloxCodec.Decode"]}
{"id": "C113", "title": "Saving what was read from JSON keeps the instances", "statement": "A JSON document that is accepted can be saved as JSON again. If its descriptions of instances have different references, reading what was saved gives, in order, one instance for each description: with the class name, the flag, without children, and with the properties that the description has and no others, with the values described; a reference leads to the instance of the description with this reference, and to none if there is no such description. Each instance has a reference, the one described if no instance has an empty reference.", "quantifier": "all JSON documents, all map orders and all generated references; values of the types that JSON keeps (C51): no Optionals, binary strings of whole groups of three bytes", "why_tests_cant": "two conversions with their tables of references are involved, any combination of instances, references, property types and values occurs, in any map order", "anchors": ["json/json.go: RootFromJSONInterface, RootToJSONInterface"]}
{"id": "C114", "title": "Converting XML to JSON writes the tree of the file", "statement": "Every XML file that is accepted can be converted to JSON. What is written is an object with the version 0 and, in order, the forms of the instances in the file with all that is below them: class name, reference, flag, properties and children. The references that are written are not empty and differ; if those of the file are not empty and differ, they are kept.", "quantifier": "all byte sequences that are accepted, with and without DiscardInvalidProperties, all map orders; a random source that does not repeat itself", "why_tests_cant": "any nesting of instances, any combination of properties, references and Optional tags occurs; both packages and their tables of references are involved", "anchors": ["rbxlx/codec.go: rdecoder.decode", "json/json.go: RootToJSONInterface, InstanceToJSONInterface"]}
{"id": "C115", "title": "Converting a binary file to JSON writes the tree of the file", "statement": "A binary file that is accepted can be converted to JSON just if no instance in it is below itself; this is so if its links name no child twice. What is written is an object with the version 0 and, in order, the forms of the instances in the file with all that is below them: class name, flag, properties and children, with generated references that are not empty and differ.", "quantifier": "all byte sequences that are accepted, compressed or not, all map orders; a random source that does not repeat itself", "why_tests_cant": "any nesting of instances, any combination of classes, properties and references occurs; both packages and their tables of references are involved", "anchors": ["rbxl/codec.go: robloxCodec.Decode", "json/json.go: RootToJSONInterface, InstanceToJSONInterface"]}

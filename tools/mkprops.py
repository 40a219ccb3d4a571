#!/usr/bin/env python3
"""Writes /verif/properties.jsonl.  Kept as source so that the list is easy to amend."""
import json
P=[]
def p(id,title,statement,quantifier,why,anchors):
    P.append(dict(id=id,title=title,statement=statement,quantifier=quantifier,why_tests_cant=why,anchors=anchors))
ALLIN="The domain is unbounded (or astronomically large); tests sample it."
p("C01","Binary property values round-trip",
 "For every binary-format value kind (string, bool, int, float, double, UDim, UDim2, Ray, Faces, Axes, BrickColor, Color3, Vector2, Vector3, Vector2int16, CFrame, CFrameQuat, Token, Reference, Vector3int16, NumberSequence, ColorSequence, NumberRange, Rect, PhysicalProperties, Color3uint8, Int64, SharedString, UniqueId, Font), decoding the bytes produced by encoding a value yields the same value and consumes exactly the bytes written, whatever bytes follow.",
 "every value of every binary type (every bit pattern of every field, every string shorter than 2^32 bytes), every suffix",
 ALLIN,["rbxl/values.go: value.Bytes / FromBytes / appendUint32 / readUint32 ...","rbxl/arrays.go"])
p("C02","Encoded length is announced exactly and short input is rejected",
 "BytesLen of a value equals the number of bytes its encoding has; decoding any strict prefix of an encoding reports an error and never succeeds or panics.",
 "every value, every truncation point","Every truncation point of every value is an infinite family.",["rbxl/values.go: BytesLen, FromBytes, buflenError","rbxl/errors.go"])
p("C03","Integer and float bit transforms are bijective",
 "The zigzag transform for 32- and 64-bit integers and the sign-rotation of float32 are inverse bijections on all bit patterns; zigzag maps a small magnitude to a small code (n>=0 to 2n, n<0 to -2n-1).",
 "all 2^32 / 2^64 bit patterns","2^64 inputs.",["rbxl/values.go: encodeZigzag32, decodeZigzag32, encodeZigzag64, decodeZigzag64, encodeRobloxFloat32, decodeRobloxFloat32"])
p("C04","Byte interleaving is the column-major transposition and is undone by deinterleaving",
 "Interleaving a non-empty array of count values of size bytes places byte j of value i at position j*count+i; deinterleaving is its exact inverse; a buffer whose length is not a multiple of the size is rejected.",
 "every buffer, every size and count","Array lengths are unbounded; the in-place cycle-free algorithm has separate square/non-square paths.",["rbxl/arrays.go: interleave, deinterleave, transpose"])
p("C05","Property arrays round-trip",
 "For every array type, encoding n >= 1 values of that type to a property array and decoding it with count n yields the same values (references are delta-coded modulo 2^32 and still round-trip; CFrame arrays split rotation and position).",
 "every type, every array length and contents, including reference arrays whose deltas overflow","Unbounded lengths, wrap-around in delta coding.",["rbxl/arrays.go: arrayToBytes, arrayFromBytes, refArrayToBytes, refArrayFromBytes, arrayCFrame"])
p("C06","Optional property arrays round-trip",
 "An array of optional values (each absent or present) with a given element type decodes to the same presence flags and values.",
 "every element type, every array","Depends on the interaction of in-place deinterleaving with trailing bytes for every element type.",["rbxl/arrays.go: arrayOptional.Bytes, FromBytes"])
p("C07","Binary chunks round-trip",
 "For each chunk kind (INST, PROP, PRNT, META, SSTR, END) decoding the payload of an encoded chunk yields the chunk, and consumes the whole payload.",
 "every chunk with consistent lengths below 2^32",ALLIN,["rbxl/model.go: chunkInstance, chunkProperty, chunkParent, chunkMeta, chunkSharedStrings, chunkEnd"])
p("C08","Chunk framing and file framing round-trip",
 "Writing a sequence of chunks (each compressed or not) after the file header and reading the stream back yields the same header counts, chunk signatures, payloads and compression flags up to and including the END chunk.",
 "every list of chunks, every payload, every lossless compressor",ALLIN,["rbxl/model.go: rawChunk.Decode, rawChunk.WriteTo","rbxl/encoder.go","rbxl/decoder.go"])
p("C09","Decompress preserves content",
 "Decoder.Decompress writes a file with the same header, and the same chunks (signature and payload) in the same order, none compressed; running it again changes nothing.",
 "every well-framed input file","Unbounded streams of chunks.",["rbxl/decoder.go: Decompress"])
p("C10","Decoding a decompressed file gives the same result",
 "Decode applied to the output of Decompress produces the same root, error and warnings as Decode on the original input (for inputs that Decompress accepts), except that the warnings about non-zero reserved bytes and about a compressed END chunk, both of which Decompress normalises away, disappear.",
 "every input file",ALLIN,["rbxl/decoder.go: Decode, Decompress"])
p("C11","Binary encode then decode reproduces the instance tree",
 "Decoding an encoded Root yields a Root whose instance forest has the same shape and child order, and the same ClassName at each node.",
 "every finite forest of instances (any depth, breadth, classes)","Every tree shape; ordering interplay of class grouping, ids and parent links.",["rbxl/codec.go: robloxCodec.Encode, Decode"])
p("C12","Binary encode then decode preserves property values",
 "After decoding an encoded Root each instance has, for every property name used by its class with a consistent type, the value that was set on it (up to documented normalisation), and no other properties.",
 "every forest, every assignment of properties",ALLIN,["rbxl/codec.go: Encode, Decode, encodeValue, decodeValue"])
p("C13","References survive the binary format",
 "A Reference property pointing to an instance in the tree points, after decode, to the corresponding instance; nil and references to instances outside the tree decode to nil.",
 "every forest and every reference graph on it","All graphs.",["rbxl/codec.go: encodeValue/decodeValue Reference"])
p("C14","Shared strings are deduplicated and preserved",
 "Equal shared strings are stored once in the SSTR chunk, distinct ones separately, and every SharedString property decodes to the original content.",
 "every assignment of shared strings (hash collision-free)",ALLIN,["rbxl/codec.go: Encode (SSTR), Decode"])
p("C15","Missing properties get defaults; mixed types drop the property",
 "If an instance lacks a property another instance of its class has, it is decoded with the zero value of that type; if the instances of a class disagree about the type of a property the property is dropped for all of them and the rest of the file is unaffected.",
 "every class group",ALLIN,["rbxl/codec.go: Encode property loop"])
p("C16","Mode only affects services and unique ids",
 "IsService is kept when encoding and decoding a Place and is false for a Model; UniqueId properties are written only for Place; otherwise Place and Model give the same chunks.",
 "every root, both modes",ALLIN,["rbxl/codec.go: Encode","rbxl/encoder.go: Mode"])
p("C17","Binary encoding is deterministic",
 "Encoding the same Root always produces the same bytes, independent of Go map iteration order.",
 "every root and every map iteration order","Map iteration order is randomised; a passing test says nothing about other orders.",["rbxl/codec.go: sortMetaData, sort props/classes","rbxl/model.go"])
p("C18","Metadata round-trips",
 "Decoding an encoded Root yields the same metadata map.",
 "every metadata map",ALLIN,["rbxl/codec.go: META","rbxl/model.go: chunkMeta"])
p("C19","Binary encoding never panics",
 "Encode returns a result or an error for every Root built from tree-shaped instances; it does not panic.",
 "every Root",ALLIN,["rbxl/codec.go: Encode"])
p("C20","Decoder rejects invalid identifiers",
 "Decode returns an error when an INST chunk repeats an instance id or class id, or uses one outside the counts of the header, when a PROP array does not have one value per instance of its class, or when a PRNT chunk has an unknown version, unequal lengths or a child id out of range. When it succeeds, the instances created are exactly the declared ones and no root, child or Reference points anywhere else.",
 "every sequence of decoded chunks","Adversarial inputs.",["rbxl/codec.go: Decode"])
p("C21","Binary decoding never panics",
 "Decode returns a result or an error for every byte stream.",
 "every byte stream","Adversarial inputs.",["rbxl/decoder.go","rbxl/codec.go","rbxl/arrays.go","rbxl/values.go"])
p("C22","Signature and version dispatch",
 "A stream starting with the binary marker and version 0 is decoded as binary; one starting with the legacy '<roblox' signature but not the binary marker is handed, byte-for-byte complete, to the XML decoder (or rejected with NoXML); any other start or version is rejected with an error; non-zero reserved bytes only warn.",
 "every byte stream",ALLIN,["rbxl/decoder.go: Decode, decode","rbxl/format.go"])
p("C23","Unknown chunks are ignored with a warning",
 "Inserting a chunk with an unknown signature anywhere before END does not change the decoded Root; it only adds a warning.",
 "every file, every position, every unknown signature and payload",ALLIN,["rbxl/decoder.go: decodeChunks","rbxl/codec.go: Decode"])
p("C24","A malformed chunk is skipped with a warning",
 "A chunk whose payload cannot be parsed is reported as a warning and treated as absent by the remaining decode.",
 "every file with malformed chunks",ALLIN,["rbxl/decoder.go","rbxl/errors.go: ChunkError"])
p("C25","Bytes after the END chunk do not matter",
 "Appending any bytes after the END chunk of a stream does not change the decoded Root.",
 "every file, every suffix",ALLIN,["rbxl/decoder.go"])
p("C26","CFrame rotation ids",
 "A rotation is written as a one-byte id exactly when it is one of the 24 axis-aligned rotations, and decoding the id gives back that rotation; any other rotation is written in full and decodes to itself. The table of ids is the matrix generated from the pair of normal ids.",
 "all rotation matrices, all 256 ids","The matrix domain is 2^288.",["rbxl/values.go: valueCFrame","rbxl/cframe.go: cframeSpecialMatrix, cframeSpecialNumber","rbxl/arrays.go: arrayCFrame"])
p("C27","Instance.Copy is a deep copy",
 "Copying an instance returns a tree of freshly allocated instances of the same shape with equal ClassName, IsService and property values; the source tree keeps its structure, class names and properties, so mutating one does not affect the other; only References of source instances may change.",
 "every instance tree and heap","Every tree shape and every sharing pattern.",["file.go: Instance.Copy, Root.Copy","values.go: Copy"])
p("C28","Copy retargets internal references",
 "A Reference property that points inside the copied tree points, in the copy, to the copied counterpart; a reference that points outside still points to the same outside instance.",
 "every tree and every reference graph","All graphs.",["file.go: Instance.Copy","ref.go"])
p("C29","References.Get assigns unique reference strings",
 "Over any sequence of Get calls on one References, each instance obtains a non-empty reference string, two different instances never obtain the same one, and a second call for an instance returns the same string.",
 "every history of calls and every outcome of the random generator","Histories are unbounded.",["ref.go: References.Get, GenerateReference"])
p("C30","Root.Copy copies the whole root",
 "Root.Copy yields a root with copies of all instances and the same metadata, sharing nothing with the original.",
 "every root",ALLIN,["file.go: Root.Copy"])
p("C31","Value.Copy returns an equal independent value",
 "For every value type Copy returns an equal value and later mutation of the copy's bytes leaves the original unchanged.",
 "every value of every type",ALLIN,["values.go: Copy"])
p("C32","Empty references and resolution",
 "IsEmptyReference holds exactly for '', 'null' and 'nil'; References.Resolve sets the property to the instance registered for the reference and returns true, or to nil, returning false, when the reference is empty or unknown; no other property or instance changes.",
 "every string, every reference table",ALLIN,["ref.go: IsEmptyReference, References.Resolve"])
p("C33","GenerateReference output format",
 "GenerateReference always returns 'RBX' followed by 32 upper-case hexadecimal digits encoding a version-4 variant-1 UUID, distinct UUIDs giving distinct references.",
 "every outcome of the random source","2^122 outcomes.",["ref.go: GenerateReference"])
p("C34","Type names round-trip",
 "TypeFromString(t.String()) = t for every valid Type, TypeFromString is Invalid for any other string, NewValue(t) has type t for every valid type and is nil otherwise.",
 "all types, all strings","All strings.",["values.go: Type, typeStrings, TypeFromString, NewValue, valueGenerators"])
p("C35","UniqueId text form",
 "The text form of a UniqueId is 32 lower-case hex digits and distinct ids have distinct texts; the XML decoder reads it back to the same id.",
 "all 2^128 ids",ALLIN,["values.go: ValueUniqueId.String","rbxlx/codec.go: UniqueId"])
p("C36","Font weight and style names",
 "FontWeightFromString/FontStyleFromString invert String on all valid values and reject all other strings.",
 "all weights/styles, all strings",ALLIN,["values.go: FontWeight, FontStyle"])
p("C37","Error aggregation",
 "Errors.Append keeps every non-nil error in order exactly once; Union does so too and flattens its arguments that are lists of errors by one level; Return is nil exactly when the list is empty, and the error message lists every error in order.",
 "every nesting and sequence of errors",ALLIN,["errors/errors.go"])
p("C38","XML text survives escaping",
 "Escaping any string as XML text or attribute value and parsing it back yields the string, with line ends normalised as XML requires (CR LF and CR become LF, except in the leading whitespace of a text); a string without carriage returns is unchanged.",
 "every byte string",ALLIN,["rbxlx/document.go: escapeString, text parsing"])
p("C39","XML documents round-trip",
 "Writing a Document and reading it back yields the same tags, attributes and text.",
 "every document tree with valid names",ALLIN,["rbxlx/document.go: Document.WriteTo, ReadFrom"])
p("C40","XML attributes",
 "AttrValue returns the value most recently set with SetAttrValue, other attributes being unaffected.",
 "every tag, every sequence of settings",ALLIN,["rbxlx/document.go: AttrValue, SetAttrValue"])
p("C41","XML output is accepted by the XML parser",
 "The bytes produced by encoding any Root as XML are accepted by the package's own parser.",
 "every Root",ALLIN,["rbxlx/codec.go","rbxlx/document.go"])
p("C42","ProtectedString and CDATA content round-trips",
 "String-like content containing any bytes, including ']]>', round-trips through the XML format.",
 "every string",ALLIN,["rbxlx/codec.go: encodeContent","rbxlx/document.go: CData"])
p("C43","Base64 with line wrapping round-trips",
 "BinaryString and SharedString content encodes to base64 lines of at most 72 columns and decodes to the same bytes.",
 "every byte string",ALLIN,["rbxlx/codec.go: BinaryString, SharedString, lineSplit, wrapWriter"])
p("C44","XML integers round-trip",
 "Every Int, Int64, Token, BrickColor, Vector3int16, Vector2int16, Color3uint8, Faces, Axes value round-trips through XML text.",
 "all integer values",ALLIN,["rbxlx/codec.go: getTagValue, encodeProperty"])
p("C45","XML composite values round-trip",
 "UDim, UDim2, Ray, Vector2, Vector3, CFrame, Rect2D, PhysicalProperties, NumberRange round-trip through XML with every component in its own place.",
 "every value (given a float printer that round-trips)",ALLIN,["rbxlx/codec.go"])
p("C46","XML type tags are canonical",
 "The tag written for a value's type is one the decoder maps back to that type; tag matching is case-insensitive; a decoded value has the type its tag stands for.",
 "all types, all tag spellings",ALLIN,["rbxlx/codec.go: GetCanonType, GetCanonTag, getProperty, encodeProperty"])
p("C47","XML references resolve regardless of order",
 "A Reference property resolves to the instance with that referent wherever it is located in the document (before or after), and to nil when empty.",
 "every document",ALLIN,["rbxlx/codec.go: Decode propRefs"])
p("C48","XML encode then decode reproduces the tree",
 "Decoding the XML encoding of a Root yields the same forest shape, class names, and references.",
 "every forest",ALLIN,["rbxlx/codec.go"])
p("C49","XML shared strings",
 "Each SharedString property decodes to the original content; each distinct content is written once.",
 "every assignment of shared strings",ALLIN,["rbxlx/codec.go: SharedStrings"])
p("C50","DiscardInvalidProperties",
 "With DiscardInvalidProperties a property whose value cannot be read is dropped, everything else being decoded as if it was not there; without it, it is decoded to the zero value of its type; valid properties are unaffected by the setting.",
 "every document",ALLIN,["rbxlx/codec.go: getItems, getProperty, getValue"])
p("C51","JSON values round-trip",
 "ValueFromJSONInterface(type, ValueToJSONInterface(v)) = v for every value type.",
 "every value",ALLIN,["json/json.go: ValueToJSONInterface, ValueFromJSONInterface"])
p("C52","JSON trees round-trip and bad shapes are rejected",
 "RootFromJSONInterface of RootToJSONInterface reproduces the tree; an interface without the supported version, or of the wrong shape, is rejected without panicking.",
 "every tree, every JSON value",ALLIN,["json/json.go"])
p("C53","Declarations resolve references independent of order",
 "Declared instances form exactly the declared tree; a Reference property resolves to the instance with that declared Ref wherever it occurs; later declarations of a property override earlier ones.",
 "every declaration tree",ALLIN,["declare/declare.go"])
p("C54","Declared values have the declared type",
 "For every declared type, normalising any list of Go values yields a value of exactly that type, with the components in their own places.",
 "every type and every argument list",ALLIN,["declare/type.go"])
p("C55","Integers are little-endian and exactly inverted",
 "Every fixed-width integer written by the binary format occupies its width in little-endian order (big-endian where interleaved) and reading it back yields the same number.",
 "all 2^16/2^32/2^64 patterns",ALLIN,["rbxl/values.go: appendUint32, readUint32, le/be"])
p("C56","Binary type ids are consistent",
 "The type id written for a property decodes to the same binary type; ids outside the table are rejected; the binary type of a value and the value type of a binary type agree.",
 "all 256 ids, all types","finite but spread over several switches that must stay in sync",["rbxl/values.go: typeID, newValue, FromValueType, ValueType","rbxl/codec.go"])
p("C57","Decoder statistics",
 "In DecoderStats, ChunkTypes counts the chunks read of each signature text, Chunks is the number of chunks read that could be parsed, and InstanceCount and ClassCount equal the counts of the header.",
 "every stream",ALLIN,["rbxl/decoder.go: DecoderStats"])
p("C58","Chunk signature text",
 "The text of a chunk signature is its four bytes in file order with non-printable bytes shown as '.'; signatures made of printable bytes have distinct texts, and the known signatures have theirs.",
 "all 2^32 signatures","2^32 inputs",["rbxl/model.go: sig"])
p("C59","Faces and Axes flags",
 "Each of the 6 faces/3 axes is one bit; all flag combinations round-trip in binary and XML.",
 "all flag combinations and all byte values",ALLIN,["rbxl/values.go: valueFaces, valueAxes","rbxlx/codec.go"])
p("C60","Line wrapping is independent of write boundaries",
 "The output of the line-splitting and wrapping writers depends only on the concatenation of the written data, never on how it was split across Write calls, and deleting the newlines gives back the data.",
 "every sequence of writes","All splittings.",["rbxlx/codec.go: lineSplit, wrapWriter"])
p("C61","The XML parser is total",
 "Reading any bytes as an XML document returns a document or an error: it neither panics nor loops, and the unread suffix is a proper part of the input.",
 "every byte string",ALLIN,["rbxlx/document.go: Document.ReadFrom, decoder"])
p("C62","Accepted XML documents have a supported root",
 "A document that the XML parser accepts has a root tag named roblox with a version attribute that is a number of at least 4 (unless the document begins with a comment, which then is its root).",
 "every byte string",ALLIN,["rbxlx/document.go: rootStart check, Document.ReadFrom"])
p("C63","The XML decoder does not panic",
 "Decoding any bytes as XML returns a tree or an error.",
 "every byte string",ALLIN,["rbxlx/format.go: Decoder.Decode","rbxlx/codec.go: Decode, getItems, getProperty, getValue, components.getFrom"])
p("C64","XML output is deterministic",
 "The bytes written for a Root, and the references given to its instances, do not depend on the iteration order of maps.",
 "every Root and every iteration order","Go randomises iteration order; a test sees one order per run.",["rbxlx/codec.go: Encode, encodeProperties, sortedProps"])
p("C65","XML encoding returns and leaves the instances alone",
 "Encoding a tree as XML returns, and changes nothing of the instances but the references of those that have none or a duplicate one; afterwards each has one that is not empty.",
 "every tree, every random source that does not repeat itself",ALLIN,["rbxlx/codec.go: encodeInstance","ref.go: References.Get"])
p("C66","XML property values round-trip",
 "After encoding as XML and decoding, an instance has exactly the properties it had, with the same values up to the documented precision of numbers and XML line ends.",
 "every tree, every property value",ALLIN,["rbxlx/codec.go: encodeProperty, getValue"])
p("C67","Declared type names are read in any case",
 "TypeFromString of the declare package gives a type for every mixture of upper and lower case of its name, the same whatever the iteration order of the table, and Type(0) for any other ASCII string; the names are those of the rbxfile types.",
 "every string, every type, every iteration order",ALLIN,["declare/type.go: TypeFromString, Type.String"])
p("C68","Binary decoding builds what the chunks say",
 "For every binary file that Decode accepts: the instances are exactly those declared by the INST chunks, with the class and service mark of their chunk; each has exactly the properties that the PROP chunks of its class give at its position, later chunks overriding earlier ones, references pointing to declared instances; roots and children are the links of the PRNT chunks in order; metadata are the pairs of the META chunks, the last one of a key counting.",
 "every byte string accepted by the decoder, not only output of the encoder",ALLIN,["rbxl/codec.go: robloxCodec.Decode","rbxl/decoder.go: decodeChunks"])
p("C69","Decoded binary files are trees",
 "In every tree returned by the binary decoder no instance occurs twice, and following children from the root ends.",
 "every byte string accepted by the decoder",ALLIN,["rbxl/codec.go: robloxCodec.Decode, chunkParent"])
p("C70","XML decoding builds what the document says",
 "For every XML document that Decode accepts: the decoded instances are trees that mirror the Item tags (class, referent, order, nesting); the properties are exactly those the tags in the first Properties tag of the Item say, a reference pointing to the last Item of the document with that referent and a shared string having the content announced for its hash; metadata are those of the Meta tags, the last of a name counting.",
 "every byte string accepted by the decoder, not only output of the encoder",ALLIN,["rbxlx/codec.go: rdecoder.decode, getItems, getProperty","ref.go: References.Resolve"])
p("C71","Converting XML to binary keeps the tree",
 "For every XML document that Decode accepts, the decoded tree can be encoded in the binary format, and decoding the binary file gives the same tree: instances correspond one to one, with the same roots, children, classes, metadata and, up to the normalisations of the binary format, the same property values.",
 "every byte string accepted by the XML decoder; every map iteration order, compression setting and file kind",ALLIN,["rbxlx/format.go: Decoder.Decode","rbxl/encoder.go: Encoder.Encode","rbxl/decoder.go: Decoder.Decode"])
p("C72","Converting binary to XML keeps the tree",
 "For every binary file that Decode accepts, the decoded tree can be encoded as XML, the result is accepted by the XML parser, and decoding it gives the same tree: the instances that can be reached from the root correspond one to one, with the same roots, children, classes and, up to the normalisations of XML, the same property values.",
 "every byte string accepted by the binary decoder; every map iteration order, random source and layout",ALLIN,["rbxl/decoder.go: Decoder.Decode","rbxlx/format.go: Encoder.Encode, Decoder.Decode"])
p("C73","XML encoding to a failing writer",
 "When a tree is encoded as XML to a writer that may take any part of what it is offered and fail at any call: what is offered is the encoding of the tree, in order and once; success is reported only if all of it has arrived and no call failed; otherwise the error reported is that of the last call made, no earlier call failed and nothing is written after it, and what has arrived is a beginning of the encoding. A tree that is rejected causes no call of the writer.",
 "every tree, every layout, every writer that keeps the contract of io.Writer, and every point at which it fails","A test can make a writer fail at a few points only.",["rbxlx/document.go: Document.WriteTo, encoder","rbxlx/format.go: Encoder.Encode"])
p("C74","Binary encoding to a failing writer",
 "The same for the binary format: what is offered to the writer is the encoding of the tree; success is reported only if all of it has arrived and no call failed; otherwise the cause of the error is the error of the last call, no earlier call failed, and what has arrived is a beginning of the encoding.",
 "every tree, every writer that keeps the contract of io.Writer, and every point at which it fails","A test can make a writer fail at a few points only.",["rbxl/encoder.go: Encoder.Encode, encode, encodeError","rbxl/model.go: rawChunk.WriteTo"])
p("C75","The offset of a failed binary encoding",
 "The Offset of the DataError with which the binary encoder reports the failure of a writer is the number of bytes that were written.",
 "every tree, every writer and every point at which it fails","A test can make a writer fail at a few points only.",["rbxl/encoder.go: encode, encodeError","rbxl/errors.go: DataError"])
p("C76","Decoding the binary format from any reader",
 "Decoder.Decode and Decompress give, for a reader that delivers some bytes in pieces of any size and then io.EOF, exactly what they give for those bytes; for a reader that fails with another error, they never return a tree or call the writer, but report either the error that the bytes themselves give or the error of the reader. The Offset of the DataError is the number of bytes that were taken from the reader.",
 "every reader that keeps the contract of io.Reader (any division into pieces, empty reads, errors with or after the last piece), every sequence of bytes, and every point at which the reader fails","A test can divide a few files in a few ways, and make a reader fail at a few points only.",["rbxl/decoder.go: Decoder.Decode, Decompress, decode, decodeChunks, decompressChunks, decodeError","rbxl/model.go: rawChunk.Decode"])
p("C77","Decoding the XML format from any reader",
 "Decoder.Decode of the XML format gives, for a reader that delivers some bytes in pieces of any size, exactly what it gives for those bytes: the same tree, or an error; the warnings and the error do not depend on the pieces, or on whether the reader is an io.ByteReader. An error of the reader is reported.",
 "every io.ByteReader and every io.Reader that makes progress (any division into pieces, empty reads, errors with or after the last piece), every sequence of bytes, and every point at which the reader fails","A test can divide a few documents in a few ways, and make a reader fail at a few points only.",["rbxlx/format.go: Decoder.Decode","rbxlx/document.go: documentRoot.ReadFrom, decoder"])
p("C78","Line numbers of XML errors and warnings",
 "Every syntax error and warning of the XML decoder has the number of a line of the input. An error that is reported before the end of the input does not depend on what follows, and its line is a line of what has been read. Every error of the parser is a syntax error or the error that ended the input.",
 "every sequence of bytes, valid or not, and every reader that delivers it","A test can check the line for a few malformed documents only.",["rbxlx/document.go: decoder.getc, decoder.ungetc, decoder.syntaxError, decoder.tagError, decoder.ignoreStartTag, decoder.decodeTag"])
p("C79","The XML grammar",
 "The XML parser accepts exactly the files that consist of whitespace, a node and a suffix in a stated grammar (elements with attributes, one CDATA section, text with line ends, named and numeric entities, comments, and malformed start tags, whose elements are dropped), and what it returns is what the node means: every reference replaced by its byte, line ends normalised, attributes, text and sub-elements in order. Every other file is an error. The grammar is not ambiguous, and decoding a file is decoding the tag it means.",
 "every sequence of bytes, and every document of the grammar, of any size and depth","The grammar has unboundedly many documents, and the claim that nothing else is accepted is about all other inputs.",["rbxlx/document.go: documentRoot.ReadFrom, decoder.decodeTag, decoder.decodeStartTag, decoder.decodeEndTag, decoder.decodeCData, decoder.decodeComment, decoder.text, decoder.readName, isNameByte, entity"])
p("C80","What the tag of a property means in the XML format",
 "When an XML document is decoded, every tag in Properties is read by a fixed meaning: the name of the tag, in any case, determines the type; the content is the CDATA section if there is one, else the text; integers are decimal numerals with an optional sign, clamped to the range of the type; components are the first subtags of their names, in any order; booleans, styles, tokens, base64, hexadecimal ids, sequences and Content have exactly the listed forms. A tag that says a value yields exactly this value, whether invalid properties are discarded or not, and a tag that says nothing is dropped if they are.",
 "every tag of a property: every name, attributes, text, CDATA, subtags, and every type of value","Unit tests cover a few texts per type; that no other text is accepted and each accepted text gives one value is a statement on all tags.",["rbxlx/codec.go:getProperty, getValue, getContent, getComponents, scanFloats, GetCanonType", "rbxlx/codec.go:decodeColor3, decodeUDim, decodeFont, ..."])
p("C81","What is dropped is reported in the warnings (XML)",
 "When the XML decoder drops something of the document, it says so in its warnings: every Item tag that becomes no instance, every Content with binary data, every property that becomes no value. A decoding without warnings has lost nothing. The encoder drops nothing and gives no warnings.",
 "every document (byte string) that the parser accepts, both settings of DiscardInvalidProperties; every tree and layout for the encoder","A test sees the warnings for some documents; that there is one for every dropped tag and none otherwise is a statement on all documents.",["rbxlx/codec.go:getItems, getValue (Content)", "rbxlx/document.go:encodeTag, WriteTo", "rbxlx/format.go:Decode, Encode"])
p("C82","The statistics of rbxfile-stat are the counts of the tree",
 "For every tree, the statistics that rbxfile-stat computes are exact, whatever the order of iteration over maps: InstanceCount and PropertyCount are the numbers of instances and of properties; ClassCount has for each class the number of its instances, and no other entry; TypeCount has for each type the number of properties of this type; OptionalTypeCount has for each type the number of properties that are Optional of this type. LargestProperties lists, in descending order of length and without repetition, the class, name, type and length of properties that have a length: all of them, or 20 such that every one left out is at most as long as every one listed; the lengths listed do not depend on the order of iteration.",
 "every finite tree of instances with any properties; every order of iteration over every map at every instance; every algorithm of sort.Slice","The statement is about all trees, and orders of iteration and sort algorithms that a test cannot choose.",["cmd/rbxfile-stat/main.go: walk, Stats.Fill, PropLenCount.MarshalJSON"])
p("C83","A dump shows the whole file",
 "If every chunk of a binary file can be decoded and no array holds optionals of optionals, Dump writes a text without panicking, and the text determines the file: two such files with the same dump have the same version, class count and instance count, and the same chunks in the same order with the same compression, names, ids, types and values (up to the bits of a NaN and fields that the format does not store).",
 "all pairs of byte strings that decode in this way, all arrays and values in them","The text mixes quoted strings, hex rows and numbers; that no two different contents ever give the same text is a statement on all pairs of files.",["rbxl/dump.go:Decoder.Dump", "rbxl/dump.go:dumpChunk", "rbxl/dump.go:dumpString", "rbxl/dump.go:dumpBytes", "rbxl/values.go:value.Dump", "rbxl/arrays.go:arrayOptional.Dump"])
p("C84","Dump reports what went wrong and delivers its text",
 "Dump has the warnings of Decode on the same bytes, fails with the same error if the bytes cannot be decoded, and with ErrXML for XML. The whole text arrives at the writer, or the error of the writer is returned; each component of a value is shown under its own name; Dump never panics on a file that was decoded.",
 "all byte strings; all writers and all ways to cut the text into calls","Writers may fail at any call, and the text is cut by a buffer; the property is on all of them.",["rbxl/dump.go:Decoder.Dump", "rbxl/values.go:valueUDim2.Dump", "rbxl/arrays.go:arrayOptional.Dump"])
p("C85","The text of a value shows the value",
 "String of a value shows it: two values of the same type have the same text only if they are the same value (up to the bits of a NaN), and equal texts come from what is shown only; the text of a Float or Double is read back by strconv.ParseFloat as the number. (The code hides some fields: the cached face and unknown weights or styles of fonts, the fields of physical properties that are not custom; and the texts of nil references and absent optionals can also be those of other values.)",
 "all values of all types; all instances with their reference strings","the values are unbounded (texts, sequences, 2^32 and 2^64 floats); whether two different composite values collide depends on where separators can appear in numbers and texts",["values.go: String methods of all Value types", "values.go: joinstr", "values.go: FontWeight.String", "values.go: FontStyle.String"])
p("C86","What the binary decoder drops, it reports",
 "The warnings of Decode on a binary file are exactly: one on reserved header bytes that are not zero; one for each chunk of unknown kind, each chunk whose content could not be decoded, and each oddity of the END chunk; one for each property chunk whose values were not understood and one for each parent link whose child is not declared; in the order of the chunks. So a file that decodes without warnings loses nothing. (The code also drops, without a warning, instances whose parent does not exist or that have no parent link.)",
 "all binary files, compressed in any way, and all outcomes of decoding","which warnings are due depends on the whole list of chunks: on the instances declared by earlier chunks, and on which chunks decode; no finite set of files covers the combinations",["rbxl/decoder.go: Decoder.decode", "rbxl/decoder.go: Decoder.Decode", "rbxl/codec.go: robloxCodec.Decode"])
p("C87","What the commands do with their input and output",
 "Each of the commands rbxfile-dcomp, rbxfile-dump and rbxfile-stat reads the file named by its first argument (standard input if it is missing or \"-\"), writes its result to the file named by the second one (standard output if it is missing or \"-\"), leaves all other files alone, and reports warnings and errors on standard error. If the input cannot be opened, the output is neither created nor emptied. rbxfile-dcomp writes the decompressed file. (Expected, but not so in the code: the message of an error is reported, a file can be processed in place, and no statistics are written for a file that cannot be decoded.)",
 "all arguments, all contents of the files, all decisions of the operating system about opening, creating and syncing","it relates the effects of whole runs, for all combinations of arguments, file contents and failures",["cmd/rbxfile-dcomp/main.go: main", "cmd/rbxfile-dump/main.go: main", "cmd/rbxfile-stat/main.go: main", "rbxl/decoder.go: Decoder.Decompress", "rbxl/dump.go: Decoder.Dump"])
p("C88","What the binary encoder leaves out, it reports",
 "A property of an instance that is not in the encoded file, because the instances of a class disagree about its type, is reported by a warning that names the class and the property; properties that are written are not reported. (Expected, but not so in the code: the warnings are collected by the codec but not returned by the encoder.)",
 "all trees, both modes, all iteration orders of maps and sorting algorithms","it relates warnings to the properties lost by an encoding and decoding of arbitrary trees",["rbxl/codec.go: robloxCodec.Encode", "rbxl/encoder.go: Encoder.Encode", "rbxl/encoder.go: Encoder.encode"])
p("C89","An error tells where it occurred and what caused it",
 "The message of an error that wraps another one ends with the message of its cause, unchanged, and what stands before depends only on what the error adds; from the message alone one can tell, through any number of layers, of which of the types each layer is, its offset (if not negative), its position (likewise), the printed signature of the chunk or the type of the value. The message of an error that wraps nothing tells all its fields. Unwrapping gives the cause. Asking for the message panics exactly if an error on a value or a chunk has no cause or a list has a nil error, at a place that is not below an error on an element of an array.",
 "all errors of the types of rbxl, rbxlx and errors, with any fields, nested to any depth","errors nest to any depth, and offsets, positions, signatures and causes are arbitrary",["rbxl/errors.go: ValueError, XMLError, CodecError, DataError, ChunkError, errReserve, errParentArray, errUnknownType, errUnrecognizedVersion", "rbxl/arrays.go: indexError, errExpectedMoreBytes, errInvalidType", "rbxl/codec.go: errBounds", "rbxl/values.go: buflenError", "rbxlx/document.go: syntaxError", "errors/errors.go: Errors.Error"])
p("C90","Saving a decoded file again changes nothing",
 "When a tree has been written as a binary file, decoding that file and writing the decoded tree gives the same bytes again, whatever the order in which maps are iterated; so a file that was loaded and saved is not changed by loading and saving it again.",
 "all trees that can be written (any number of instances, any values, references, shared strings, missing properties), both kinds of file, with and without compression, all iteration orders of maps and all sorting algorithms in both runs","trees, values, iteration orders and sorting algorithms are unbounded, and two encodings and a decoding are composed",["rbxl/codec.go: robloxCodec.Encode, robloxCodec.Decode", "rbxl/encoder.go: Encoder.Encode", "rbxl/decoder.go: Decoder.Decode", "rbxl/arrays.go: refArray, interleave, ValuesToBytes"])
p("C91","A binary file depends on the tree, not on where it is stored",
 "Two trees that have the same shape, classes, flags and property values, references pointing to corresponding instances (or out of the tree), are written as the same binary file, or neither can be written; the Reference strings of the instances do not matter. In particular a tree and its copy are written as the same file.",
 "all pairs of trees that differ only in the identity of the instances, all iteration orders and sorting algorithms, both kinds of file, any compression","pairs of trees and correspondences between them are unbounded, and so is the order of maps",["rbxl/codec.go: robloxCodec.Encode", "rbxl/encoder.go: Encoder.Encode", "file.go: Root.Copy, Instance.Copy"])
p("C92","Saving a decoded XML file again changes nothing",
 "A tree is written as an XML file, the file is decoded, and the decoded tree is written with the same settings: the second file equals the first, byte by byte, whatever the random references drawn, the order of maps and the sorting algorithm. Whatever the values, the file written from a tree that was decoded from a written file is never changed by decoding and writing it.",
 "all trees, layouts and settings, all random sources, iteration orders and sorting algorithms, all numbers","trees, texts and numbers are unbounded (there are 2^64 doubles, of which two fail), and random references and the order of maps vary between runs",["rbxlx/codec.go: robloxCodec.Encode, robloxCodec.Decode, encodeFloat, encodeDouble", "rbxlx/document.go: documentRoot.WriteTo, documentRoot.ReadFrom", "rbxlx/encoder.go: Encoder.Encode", "rbxlx/decoder.go: Decoder.Decode"])
p("C93","An XML file depends on the tree",
 "Two trees, whose instances and the instances they refer to have different References, are the same in classes, References, properties, children and metadata: both are written, as the same XML file, whatever the random source, the order of maps and the sorting algorithm, and no instance is changed. In particular such a tree is written as the same file every time, and a tree that has been copied and its copy are written as the same file.",
 "all trees and layouts, all random sources, iteration orders and sorting algorithms, all orders in which instances are allocated","trees are unbounded, and random references, addresses and the order of maps vary between runs",["rbxlx/codec.go: robloxCodec.Encode, rencoder.encodeInstance, rencoder.encodeProperties, rencoder.encodeProperty", "rbxfile.go: References.Get, Instance.Copy, Root.Copy", "rbxlx/encoder.go: Encoder.Encode"])
p("C94","The layout of a binary file",
 "The file that the binary encoder writes for a tree has the layout of the format: the header counts the classes and the instances; then come, in this order, the metadata if there is any, the shared strings if there are any (each once), one INST chunk for each class, ordered by name and with consecutive ids, one PROP chunk for each property that is written, ordered by class and name, with one element for every instance of the class and the type of the values, the PRNT chunk and the END chunk with its closing tag, which is never compressed. Instances are numbered in the order of the tree; every number is in exactly one INST chunk; the PRNT chunk has every instance exactly once with its parent, before its parent.",
 "all trees of fewer than 2^31 instances, all modes, iteration orders and sorting algorithms","trees are unbounded, and the order of maps varies between runs",["rbxl/codec.go: robloxCodec.Encode", "rbxl/encoder.go: Encoder.Encode", "rbxl/model.go: formatModel"])
p("C95","A declared tree can be saved",
 "Whatever is declared with the declare package, the root that Declare returns is a tree of new instances, in the declared order, that both encoders accept; saving it in either format and reading the file gives the declared tree: the declared class names, children, metadata, and for each property the value that the documentation of the declaration says, up to what the format does not keep.",
 "all declarations, all iteration orders, all modes of the encoders","declarations are unbounded trees of arbitrary values of many types, combined with every mode of the encoders",["declare/declare.go: Root.Declare", "declare/type.go: Type.value", "rbxl/encoder.go: Encoder.Encode", "rbxlx/encoder.go: Encoder.Encode"])
p("C96","The layout of an XML file",
 "The XML encoder writes one document: a root element `roblox` with version 4 and the attributes Roblox expects; in it, in this order, a Meta element for each entry of the metadata, ordered by key, two External elements, an Item element for each instance, nested like the tree, and, if a shared string occurs, a SharedStrings element with each string once, ordered by hash. An Item has the class and the reference of its instance as attributes, contains first the properties, ordered by name, each in an element named after the type of the value with the components of the value as elements, then the children in order. References are different from each other and not empty; a property of type Reference has the reference of its instance as text, one of type SharedString the hash of the string. The options of the encoder leave out references, External elements or metadata and nothing else.",
 "all trees whose ProtectedStrings do not contain \"]]>\" (see C41), all values, all options of the encoder, all random sources and iteration orders, all layouts of whitespace","the file depends on the whole tree: names, classes, references, nesting and strings are unbounded; order depends on map iteration",["rbxlx/codec.go: rencoder", "rbxlx/codec.go: encodeProperty", "rbxlx/codec.go: GetCanonTag", "rbxlx/document.go: newRoot, newItem", "rbxlx/format.go: Encoder.Encode"])
p("C97","Structures of instances that are not trees",
 "What happens to a Root in which an instance occurs several times, is below itself, or has a nil child. The binary encoder panics on exactly those structures that are no trees (besides C19), unless all instances at the top are nil, in which case it writes the file of an empty root. The XML encoder, the conversion to JSON, Root.Copy and Instance.Copy return exactly if the structure is finite, that is without nil instances and cycles; an instance that occurs several times is written, converted or copied each time it occurs, and an XML file has the layout of C96 for all occurrences.",
 "all structures of instances, also with shared, nil and cyclic children; all values, random sources that do not repeat themselves, iteration orders and options","structures are unbounded in size and depth; non-termination cannot be observed by a test",["rbxl/codec.go: Encode, addInstance, recInst", "rbxlx/codec.go: encodeInstance", "json/json.go: InstanceToJSONInterface", "file.go: Instance.copy, Root.Copy, Instance.Copy"])
p("C98","What is read from JSON",
 "What RootFromJSONInterface returns, if it accepts its argument. Each object with a class name in the list of instances yields an instance at the top, with the class name, the reference, the flag and exactly the properties described, provided that no two of these objects have the same reference; a property of type Reference gets the instance with that reference, wherever it is described; no other instance is more than blank. Whether references differ or not, the result is finite, no instance has children, property names are distinct and references lead to existing instances, so that the XML encoder always returns. The instances at the top are trees just if no two objects have the same reference; the binary encoder panics just if two have, or on badly typed Optionals as in C19.",
 "all JSON values, iteration orders, results of converting numbers out of range; all layouts, random sources that do not repeat themselves, hash functions and options","JSON values are unbounded; references may occur before and after the object they belong to",["json/json.go: RootFromJSONInterface, InstanceFromJSONInterface, ValueFromJSONInterface", "ref.go: Resolve, IsEmptyReference"])
p("C99","The bytes of a binary file",
 "Which bytes a binary file consists of, stated apart from the code: the signature and header, the frames of chunks with their lengths, and for every kind of chunk and every type of value the bytes of its content (order of bytes, zigzag numbers, rotated floats, interleaved arrays, accumulated references, numbers of types). A tree is encoded to such a file, with chunks that describe the tree. A model of chunks that can be read is written as exactly these bytes. Every file with these bytes, whoever wrote it, is read as its chunks, and decoded to the tree it describes.",
 "all trees, models of chunks, files, compressors without loss, iteration orders, hash functions without collisions on the tree","trees and files are unbounded, and a test of a round trip does not see an error that is made both ways",["rbxl/model.go: FormatModel.WriteTo, FormatModel.ReadFrom, chunk encoders", "rbxl/arrays.go: valuesToBytes", "rbxl/values.go: Bytes, FromBytes", "rbxl/codec.go: robloxCodec.Encode"])
p("C100","The JSON form of instances and values",
 "What is written to JSON, stated apart from the code: a root is an object with the version 0 and the list of its instances; an instance is an object with its class name, reference, service flag, properties and children; a property is an object with the name of its type and its value; and every type of value has its own form (literal keys and names of types). Writing alters nothing but empty or duplicate references. When a value is read, the JSON that is accepted for each type and the value it stands for are exactly those of the specification.",
 "all structures of instances, values of every type, JSON values, names of types, sources of random references, iteration orders, treatments of numbers out of range","trees and JSON values are unbounded, and a test of a round trip does not see a wrong key or name of a type that is used both ways",["json/json.go: RootToJSONInterface, InstanceToJSONInterface, ValueToJSONInterface, ValueFromJSONInterface", "values.go: Type.String, TypeFromString"])
p("C101","The text of an XML file",
 "Which characters the XML file of a tree consists of, stated apart from the code: the prefix; the root element with its attributes; for the metadata, ordered by key, the External elements, each instance and, ordered by hash, the shared strings, an element in its own line, indented by its depth; the suffix; or the same elements without the root. An instance has its class and reference as attributes, and contains its properties, ordered by name, then its children. For every type of value the names of the elements and their texts are given: decimal numbers, nine or six significant digits and at least three digits of an exponent, flags, Base64 in lines of 72 characters, hexadecimal digits. Special characters are written by name, others that cannot be printed and leading whitespace by number.",
 "all structures of instances that can be written, layouts and options, iteration orders, sources of random references, hash functions","trees and texts are unbounded, and a test of a round trip does not see an error that is made both ways",["rbxlx/codec.go: rencoder.encode, encodeInstance, encodeProperties, encodeProperty, fixFloatExp, lineSplit, wrapWriter", "rbxlx/document.go: documentRoot.WriteTo, encodeTag, writeIndent, escapeString", "rbxlx/format.go: Encoder.Encode"])
p("C102","Saving again writes the same file",
 "A structure of instances that has been saved as XML or as JSON, and that is not changed afterwards, is saved again as the same file, and the second saving changes nothing; this holds whatever the References were before the first saving (empty, doubled), and whatever the sources of random References and the orders of maps are in both. After the first saving the instances, and those that properties refer to, have different References, none of them empty.",
 "all structures of instances (trees for XML; whatever can be saved for JSON), References, settings and layouts, sources of random References, iteration orders","the second run sees the random References of the first and may visit maps in another order; trees, References and orders are unbounded",["rbxlx/codec.go: rencoder.encode, encodeInstance, encodeProperty", "json/json.go: RootToJSONInterface, InstanceToJSONInterface, ValueToJSONInterface", "ref.go: References.Get"])
p("C103","What is decoded is no larger than the file",
 "The tree that Decode returns for a binary file (its instances, the texts and keypoints in their properties, their children, the instances at the root and the metadata) is smaller than the file that Decompress makes of the same input, and smaller than the file itself if none of its chunks is compressed. Whatever counts and lengths a header, a chunk or an array claims, there are fewer instances than a quarter of the bytes of the decompressed file. The tree decoded from an XML file is no larger than that file.",
 "all byte strings that are decoded to a tree, as binary or as XML files, all LZ4 codecs that decompress what they compress, all slack contents of buffers","hostile counts and lengths range over all 32-bit numbers, in every chunk, and files are unbounded",["rbxl/codec.go: robloxCodec.Decode", "rbxl/decoder.go: Decoder.Decode, Decoder.Decompress", "rbxl/model.go: chunkInstance.Decode, chunkProperty.Decode, chunkParent.Decode", "rbxl/arrays.go: typeArrayFromBytes, refArrayFromBytes","rbxlx/document.go: decodeTag","rbxlx/codec.go: rdecoder.decode, getItems, getProperty, getValue"])
p("C104","A chunk of a file has no effect beyond what it lists",
 "When a chunk other than an INST or the END chunk is removed from a binary file that can be decoded, the file can still be decoded and the tree is the same besides what the chunk lists: a PROP chunk sets no more than the property of its name of the instances of its class; a PRNT chunk adds no more than the children it lists, and moves none; a META chunk sets no more than the metadata it lists; a SSTR chunk supplies no more than the contents of SharedString values. Likewise, when one PROP chunk is replaced with another of the same class and name, only that property changes.",
 "all byte strings that are decoded to a tree, split at any chunk, whatever follows; all LZ4 codecs that decompress what they compress, all quaternion conversions and slack contents of buffers","files have any number of chunks in any order with any payloads, and chunks that could not be decoded among them",["rbxl/codec.go: robloxCodec.Decode", "rbxl/decoder.go: Decoder.Decode, Decoder.decodeChunks", "rbxl/model.go: chunkProperty.Decode"])
p("C105","A dump shows of a cut chunk what its bytes tell",
 "If the payload of a chunk is cut off, so that it cannot be decoded, Dump still shows the chunk: with each field whose bytes are all there as the complete chunk has it, and zeros (empty strings, false) for the others; with as many elements as the complete chunk has when their number is there; and never with a field or an element that the complete chunk does not have.",
 "all payloads of META, SSTR, INST, PROP, PRNT and END chunks that can be decoded, cut at any position; all classes decoded before; all slack contents of buffers","a payload can be cut at any of its bytes, and it has any number of strings, ids and elements of any type",["rbxl/decoder.go: Decoder.decodeChunks", "rbxl/model.go: chunkInstance.Decode, chunkProperty.Decode, chunkParent.Decode, chunkMeta.Decode, chunkSharedStrings.Decode", "rbxl/arrays.go: arrayFromBytes, arrayOptional.FromBytes", "rbxl/dump.go: dumpChunk"])
p("C106","The order of chunks that have nothing to do with each other does not matter",
 "Two adjacent chunks of a file, other than INST chunks and the END chunk, can be swapped if they have nothing to do with each other: the same tree is decoded. META and PRNT chunks can be swapped with each other and with PROP and SSTR chunks; PROP chunks of different names can be swapped, and those of the same name if their classes have no instance in common; PRNT chunks if they list no children of the same parent; META chunks if they have no key in common.",
 "all files that are decoded to a tree; all places in them; all pairs of adjacent chunks other than INST and END; both modes; all lossless LZ4 codecs and all slack contents of buffers","a file has any number of chunks in any order, and any contents",["rbxl/decoder.go: Decoder.decodeChunks", "rbxl/codec.go: robloxCodec.Decode"])
p("C107","What the XML decoder ignores",
 "Two XML files give the same tree (or the same failure) if their documents are the same but for what does not count: in the root and in Items, tags other than Item, Properties, Meta and SharedStrings (comments, External and unknown tags), Items without a class together with what is in them, and Properties tags in the root or after the first of an Item; attributes of Items other than class and referent; properties without a name or of unknown types; attributes, end names and comment marks within properties; the place of Meta and SharedStrings tags among the others.",
 "all pairs of files that are parsed, whatever the depth of their documents; with and without DiscardInvalidProperties; whether they are decoded to a tree, rejected, or panic","documents are of any size and depth, and what does not count can be at any place in them",["rbxlx/codec.go: rdecoder.decode, rdecoder.getItems, rdecoder.getProperty, robloxCodec.getFrom", "rbxlx/format.go: Decoder.Decode"])
p("C108","The order of properties in an XML file does not matter",
 "If an XML file is decoded to a tree, another file is decoded to the same tree (with the same roots, children, classes, references, values and metadata) if its document has the same Items in the same order, each with the same properties in whatever order, before, between or after the Items within it; the same metadata; and the same shared strings. Only the order of several properties of the same name, or of Meta tags of the same name, counts.",
 "all pairs of files that are parsed, whatever the depth of their documents; with and without DiscardInvalidProperties","documents are of any size and depth; references and shared strings are resolved after all properties were read, in the order in which they were read",["rbxlx/codec.go: rdecoder.decode, rdecoder.getItems, rdecoder.getProperty", "rbxlx/format.go: Decoder.Decode"])
p("C109","An Item of an XML file has no effect beside the instances it describes",
 "If some Items of an XML file, at the top or deep inside other Items, are replaced with others, removed, or inserted, the decoded trees are the same beside the instances that these Items describe: the other instances have the same classes, referents, children and properties, in the same order, and the metadata are the same; only a reference to a referent that one of the replaced or new instances has may lead to such an instance. The other file is decoded as well, unless a new Item has a font that makes the decoder panic (as in C63).",
 "all files that are parsed, all places in them and all lists of Items there; with and without DiscardInvalidProperties","documents are of any size and depth; all instances share the numbering, the table of referents, and the pending references and shared strings, which are resolved after everything was read",["rbxlx/codec.go: rdecoder.decode, rdecoder.getItems, rdecoder.getProperty", "rbxlx/format.go: Decoder.Decode"])
p("C110","The order of the fields of a JSON document does not matter",
 "Converting JSON documents that differ only in the order of the fields of their objects has the same outcome, in whatever order Go iterates over its maps: both conversions panic, both reject the document, or both yield the same instances (same identity, class names, references, flags and property values) and the same root. The same holds of single values and of texts given to Decode.",
 "all documents whose objects have no field twice, of any size and depth, all reorderings of fields at any depth, and all orders of iteration over maps","Go iterates over maps in random order and the pending references are resolved in the order of that iteration; a test sees one order and one document",["json/json.go: RootFromJSONInterface, InstanceFromJSONInterface, ValueFromJSONInterface, Decode"])
p("C111","Converting JSON to XML keeps the instances",
 "A JSON document that is accepted and whose descriptions of instances have different references can be encoded as an XML file, which is accepted. Decoding the file gives, in order, one instance for each description: with the class name and without children, with the properties that the description has and no others, and, for the values that XML can store, with the value that is described, up to line ends and digits; a reference leads to the instance of the description with this reference, and to none if there is no such description.",
 "all JSON documents, all encoder parameters and layouts of whitespace, with and without DiscardInvalidProperties; no carriage returns in names and references, no end of CDATA in ProtectedString, no hash collision","three packages and all their loops and tables of references are involved; any combination of instances, references, property types and values occurs",["json/json.go: RootFromJSONInterface", "rbxlx/codec.go: rencoder.encode, rdecoder.decode"])
p("C112","Converting JSON to binary keeps the instances",
 "A JSON document that is accepted and whose descriptions of instances have different references can be encoded as a binary file without compression, unless Optionals make the encoder panic. Decoding the file gives, in order, one instance for each description: with the class name and without children, a service if a place is written and the description says so. A property whose values in the instances of the class have one type is kept, all others are lost; a reference leads to the instance of the description with this reference, and to none if there is no such description.",
 "all JSON documents, models and places, with and without compression, all map orders and sorters; Optionals of types that are not interleaved, chunks below 4 GiB, no hash collision","three packages and all their loops and tables of references are involved; any combination of classes, references, property types and values occurs, in any map order",["json/json.go: RootFromJSONInterface", "rbxl/codec.go: robloxCodec.Encode, robloxCodec.Decode"])
p("C113","Saving what was read from JSON keeps the instances",
 "A JSON document that is accepted can be saved as JSON again. If its descriptions of instances have different references, reading what was saved gives, in order, one instance for each description: with the class name, the flag, without children, and with the properties that the description has and no others, with the values described; a reference leads to the instance of the description with this reference, and to none if there is no such description. Each instance has a reference, the one described if no instance has an empty reference.",
 "all JSON documents, all map orders and all generated references; values of the types that JSON keeps (C51): no Optionals, binary strings of whole groups of three bytes","two conversions with their tables of references are involved, any combination of instances, references, property types and values occurs, in any map order",["json/json.go: RootFromJSONInterface, RootToJSONInterface"])
p("C114","Converting XML to JSON writes the tree of the file",
 "Every XML file that is accepted can be converted to JSON. What is written is an object with the version 0 and, in order, the forms of the instances in the file with all that is below them: class name, reference, flag, properties and children. The references that are written are not empty and differ; if those of the file are not empty and differ, they are kept.",
 "all byte sequences that are accepted, with and without DiscardInvalidProperties, all map orders; a random source that does not repeat itself","any nesting of instances, any combination of properties, references and Optional tags occurs; both packages and their tables of references are involved",["rbxlx/codec.go: rdecoder.decode", "json/json.go: RootToJSONInterface, InstanceToJSONInterface"])
p("C115","Converting a binary file to JSON writes the tree of the file",
 "A binary file that is accepted can be converted to JSON just if no instance in it is below itself; this is so if its links name no child twice. What is written is an object with the version 0 and, in order, the forms of the instances in the file with all that is below them: class name, flag, properties and children, with generated references that are not empty and differ.",
 "all byte sequences that are accepted, compressed or not, all map orders; a random source that does not repeat itself","any nesting of instances, any combination of classes, properties and references occurs; both packages and their tables of references are involved",["rbxl/codec.go: robloxCodec.Decode", "json/json.go: RootToJSONInterface, InstanceToJSONInterface"])
import os
with open(os.path.join(os.path.dirname(__file__),"..","properties.jsonl"),"w") as f:
    for x in P: f.write(json.dumps(x,ensure_ascii=False)+"\n")
print(len(P))

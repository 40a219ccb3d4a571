STATUS={
"C01":"proved","C02":"proved","C03":"proved","C04":"proved","C05":"proved","C06":"partial","C07":"proved","C08":"proved",
"C09":"proved","C10":"proved","C20":"proved","C21":"partial","C22":"proved","C23":"proved","C24":"proved","C25":"proved",
"C11":"proved","C12":"partial","C13":"proved","C14":"proved","C15":"partial","C16":"proved","C17":"partial","C18":"proved","C19":"partial",
"C26":"proved","C27":"partial","C28":"proved","C29":"proved","C30":"partial","C31":"partial","C32":"proved","C33":"proved",
"C34":"proved","C35":"proved","C36":"proved","C37":"proved","C56":"proved","C59":"proved",
"C38":"proved","C39":"partial","C40":"partial","C61":"proved","C62":"proved","C43":"proved","C60":"proved",
"C55":"proved","C57":"proved","C58":"proved",
"C41":"partial","C42":"partial","C44":"partial","C45":"partial","C46":"partial","C47":"proved","C48":"proved","C49":"proved",
"C50":"partial","C63":"partial","C64":"proved","C65":"proved","C66":"partial",
"C51":"partial","C52":"partial",
"C53":"proved","C54":"partial","C67":"proved","C68":"proved","C69":"partial","C70":"proved","C71":"partial","C72":"partial","C73":"proved","C74":"partial","C75":"partial","C76":"proved","C77":"partial","C78":"proved","C79":"proved","C80":"proved","C81":"partial","C82":"proved","C83":"proved","C84":"partial","C85":"partial","C86":"partial","C87":"partial","C88":"partial","C89":"proved","C90":"partial","C91":"partial","C92":"partial","C93":"partial","C94":"proved","C95":"partial","C96":"proved","C97":"proved","C98":"proved","C99":"proved","C100":"proved","C101":"proved","C102":"proved","C103":"proved","C104":"proved","C105":"partial","C106":"proved","C107":"proved","C108":"proved","C109":"proved","C110":"proved","C111":"proved","C112":"proved","C113":"proved","C114":"proved","C115":"proved",
}
NOTES={
"C01":"Optional is not a value kind of its own in the code (it exists only as an array, see C06). Fields the format does not store (rotation of a special-id CFrame, fields of PhysicalProperties without custom physics) come back as zero: SameStored.",
"C02":"Truncation, totality and length, for all types.",
"C03":"Zigzag specified on mathematical integers.",
"C04":"For count >= 1; the code panics (division by zero) on an empty buffer: C04_empty_panics.",
"C05":"For non-empty arrays (the encoder only builds arrays of non-empty groups); an empty interleaved array panics: C05_empty_interleaved_panics.",
"C06":"Proved for all non-interleaved element types (CFrame included). False for interleaved element types: C06_interleaved_fails.",
"C07":"Strings and arrays shorter than 2^32 (id arrays shorter than 2^30: the code computes n*4 in uint32).",
"C08":"For every lossless lz4 (a parameter of the model).",
"C09":"",
"C10":"",
"C11":"For trees (no instance shared, no cycles) without chunks of 4 GiB or more, Optional values only of types the format can store (Encodable).",
"C12":"Normalisations listed in Spec.Kept (string kinds become String, sign of zero in axis-aligned rotations, PhysicalProperties without custom physics). Not proved, because false, for Optional values of interleaved types: C12_optional_int_fails.",
"C13":"","C14":"Under the assumption that the 16-byte hash has no collision among the shared strings of the tree.",
"C15":"Zero values proved for all types but Reference and SharedString, for which the code stores index 0 instead: the decoded value is a reference to the first instance, or one of the shared strings of the tree, the same for all (C15_missing_exact, C15_missing_reference_fails).",
"C16":"","C17":"Everything but the order of the entries in the metadata chunk is proved independent of iteration order; the metadata order is not (the comparator compares a key with a value): C17_metadata_order_fails.",
"C18":"","C19":"C19_panics_iff says exactly when encoding a tree of fewer than 2^31 instances panics (Optionals without a type, of different types, or of Optionals, with the same property of the same class), so the full property is false of the code: C19_invalid_optional_fails, C19_mixed_optionals_fails. Structures that are not trees: C97.",
"C20":"A PROP chunk naming a class without INST chunk is not an error in the code: it is skipped with a warning. C20_reads_iff and C20_accepts_iff say exactly which files are read and which are accepted.",
"C21":"C21_panics_iff says exactly, for every byte stream, when the decoder panics: a frame with a compressed length within 4 of 2^32, CFrames with cut positions, or an Optional that is present and holds a reference, a shared string or an absent Optional. So the full property is false of the code (C21_length_overflow_panics, C21_short_cframe_panics, C21_optional_reference_panics).",
"C22":"","C23":"","C24":"","C25":"","C55":"",
"C57":"Chunks that could not be parsed are not counted in Chunks (but are in ChunkTypes); DecoderStats.PropertyCount does not exist.",
"C58":"",
"C26":"Floats are compared as the code does (==, on bit patterns with +0 = -0).",
"C27":"C27_instance_copy_exact and C27_root_copy_exact say what is made for every tree, and that it is a faithful copy just if no Font has a CachedFaceId that differs from its Family; for these the code is wrong: C27_font_fails. Termination (C27_copy_returns) needs a random source that does not repeat itself indefinitely.",
"C28":"The counterpart of an instance is determined by the shape of the trees (Spec.Counterparts). References inside Optional values are kept as they are.",
"C29":"Whenever Get returns; it returns if the random source produces a fresh reference within the given number of attempts (C29_get_returns).",
"C30":"The instances are proved (Fonts as in C27); the metadata is lost in the code: C30_metadata_fails.",
"C31":"C31_copy_exact says what the copy of every value is, and that it is equal to the original just if no Font has a CachedFaceId that differs from its Family; for these the code is wrong: C31_font_fails. Independence proved for all.",
"C32":"","C33":"","C34":"",
"C35":"",
"C36":"","C37":"",
"C56":"","C59":"",
"C38":"The exact normalisation is Spec.normText / Spec.normNewlines; C38_cr_fails shows it is not the identity.",
"C39":"Proved for documents with valid names, without carriage returns, comments and CDATA (Plain); C39_read_back gives what is read back for all documents with well-formed names. False in general: C39_comment_fails, C39_empty_fails, C39_cr_fails.",
"C40":"SetAttrValue does not change the value of an attribute that exists: C40_update_fails. Proved: setting a new attribute, removing one, no effect on others.",
"C61":"","C62":"","C43":"","C60":"",
"C41":"Proved for trees without a ProtectedString that contains \"]]>\", for which it is false: C41_cdata_fails. The parser stops before the suffix given in the layout.",
"C42":"Proved up to the normalisation of line ends (Spec.normText), which is the identity without carriage returns; false with carriage returns and for ]]> in ProtectedString: C42_cr_fails, C42_cdata_fails.",
"C44":"False for BrickColor (decoded as Int) and tokens from 2^31 on: C44_brickcolor_fails, C44_token_fails.",
"C45":"Numbers come back with the same bits, except that NaNs become the standard NaN; proved with an exact model of the number formatting and parsing of strconv (Go/Decimal). False for the direction of a Ray and the seventh digit of a NumberRange: C45_ray_fails, C45_range_fails.",
"C46":"False for BrickColor, which is written with the tag int: C46_brickcolor_fails.",
"C47":"For trees without carriage returns in references; with the correspondence of C48.",
"C48":"For trees without carriage returns in references and property names, without ]]> in ProtectedString and without hash collisions; class names and metadata up to normalisation of line ends. IsService is not stored in XML.",
"C49":"Under the assumption that the hash has no collision among the shared strings of the tree.",
"C50":"False for Content with a text, which is dropped in both modes: C50_content_fails.",
"C51":"Proved for the values listed in Spec.JsonSupported (bits of NaNs aside). False for binary and shared strings whose length is not a multiple of three (C51_binary_fails), Optional (C51_optional_fails), UniqueId and Font (C51_uniqueId_font_fails), 64 bit integers that are not exact as a double (C51_int64_fails). C51_exact says exactly which values come back.",
"C52":"Round trip proved for roots whose instances have no children; with children the code panics: C52_children_fails, and C52_back_panics_iff says of which roots the conversion back panics. Metadata is not stored. Rejection of wrong versions and shapes proved for all documents; C52_panics_iff says exactly which documents make the conversion panic (children, values that lack parts of their types, bad Optionals); examples C52_shape_fails. encoding/json is a parameter (C52_text_partial).",
"C53":"Values are those of C54 (Documented, not Refused). A declaration that makes evaluation panic is characterised exactly (C53_returns). Pointers of existing instances in the declarations are taken to be below base.",
"C54":"The type is right except for strings of the types BinaryString, ProtectedString, Content and all numbers of type Double: C54_strings_fails, C54_double_fails. The documented meaning (Spec.Documented, transcribed from the comment of Property) holds except for the cases in Spec.Refused, for each of which the code is shown to be wrong: C54_cframe_fails, C54_rect_fails, C54_numberSequence_fails, C54_colorSequence_fails and the two above. C54_panic: the one panic.",
"C67":"strings.ToLower of strings that are not ASCII is a parameter.",
"C63":"The property is false of the code (C63_font_fails: a Font with a Weight out of range before its Family makes it dereference nil). C63_panics_iff says exactly which documents panic, C63_otherwise what happens with all others: nothing is missing but the truth of the claim for these fonts.",
"C64":"","C65":"",
"C66":"Proved for the values listed in Spec.XmlSupported up to Spec.XmlKept. C66_exact says what becomes of every other value too (Spec.XmlAltered), and C66_altered that it is never the one asked for. False for the others: C44_brickcolor_fails, C44_token_fails, C45_ray_fails, C66_font_fails, C66_style_fails, C66_optional_fails; Double keeps nine digits only: C66_double_fails.",
"C68":"For every accepted file; quaternions and lz4 are parameters.",
"C69":"False in general (C69_trees_fails). C69_trees_iff says exactly for which accepted files it holds: no two parent links connected with the root have the same child.",
"C71":"Proved for every accepted document whose Optional tags are all of type CFrame; the full property is false of the code (C71_converts_fails: an empty tag OptionalThing makes the binary encoder panic); C71_converts_iff and C71_panics_iff say exactly for which decoded trees. Fewer than 2^31 instances, chunks below 4 GiB, no collision of the hash of shared strings.",
"C72":"Proved for every accepted file whose parent links (those connected with the root) name no child twice; the full property is false of the code (C72_converts_fails: the tree can contain itself and the encoder overflows the stack). For decoding back: no carriage returns in the names of properties, no hash collision; values outside XmlSupported (see C66) may change.",
"C73":"bufio.Writer is modelled from its source; the writer is any state machine that keeps the contract of io.Writer.",
"C74":"Proved if no error of the writer is an empty errors.Errors; such an error is dropped by encodeError and success is reported (C74_delivers_fails).",
"C77":"The decoder transcribed byte by byte (getc, ungetc, sticky error, line, tag stack, warnings), with bufio.Reader, is shown to do what the function on byte strings does. False parts: an error of the reader after the root tag is swallowed (C77_suffix_fails), one after text or between tags is replaced by an unmatched tag error (C77_lost_fails), a reader that returns nothing 100 times is given up (C77_stall_fails). So the part on failing readers is C77_broken_partial.",
"C78":"For the parser; the warnings of the codec have no line. The steps of the decoder are bounded by a fuel argument; the error for an exhausted bound is shown never to occur from 2*n+5 on.",
"C79":"The grammar is that of the format as it is read: C79_slash, C79_end_name, C79_no_value and C79_ampersand show where it differs from XML. Kernel-checked in both directions: what is written is read (by recursion on nodes) and what is read was written (by recursion on the steps of the parser).",
"C80":"The meaning is Spec.SaysValue / SaysProperty, proved equivalent to the decoder (C80_reads is an iff). Reading of fractional numbers (strconv.ParseFloat) and base64 are those of the model of the Go library. Quirks included in the specification: C80_cut (components after an integer out of range are not read), C80_uniqueId_cdata.",
"C81":"Proved for Items (one warning per Item without a class, an instance for every other one) and for binary data; the encoder is shown to give no warning for any tree; the document writer below it warns just if it leaves something out, and writes the document as if that were not there (C81_writer, C81_writer_warns; with indentation only up to white space, C81_writer_fails). False for properties, which are dropped silently: C81_properties_fails. Exact for Fonts whose tag says a value. The warnings of the parser are those of C78.",
"C82":"C82_counts: all counters for every tree and iteration order; C82_largest: what the list of the largest properties contains; C82_largest_lengths: its lengths are determined (C82_largest_ties: the entries are not, when lengths are equal); C82_case, C82_case_counts: a concrete tree. Not modelled: the JSON text of the statistics, nil values, the flags and files of main.",
"C83":"The shortest text of floats is modelled exactly. Excluded: files with errored chunks, whose inner part is not modelled, and optionals of optionals, on which Dump can panic (C84_panics_fails). The bytes after the END chunk are not shown.",
"C84":"Warnings, errors and delivery are proved (C84_reports_partial, C84_delivers_partial). False of the code: the error of Flush is ignored (C84_delivers_fails), Dump panics on optionals of absent optionals (C84_panics_fails), even in a chunk that could not be decoded and that Decode only warns of (C84_errored_fails); C84_panics_iff says exactly when Dump panics, for errored chunks by a model of what was decoded of them (Rbxl/Partial, C84_lookup), and C84_returns gives a condition under which files with errored chunks are shown; an instance chunk that could not be decoded still names the class of later property chunks (C84_lost_class), the labels of UDim2 are exchanged (C84_udim2_fails).",
"C85":"Exact (iff) for all types except references and optionals; optionals with values reduce to their values, references need distinct reference strings other than \"<nil>\". What is missing is false of the code: C85_text_fails.",
"C86":"Exact list of warnings for every file. What is missing is false of the code: instances without a valid parent disappear silently (C86_orphan_fails, C86_unlinked_fails).",
"C87":"Streams, other files, refused files and warnings are proved. False of the code: the message of an error is never shown (C87_error_fails), a file processed in place is emptied (C87_in_place_fails), rbxfile-stat writes statistics for files that it cannot decode (C87_stat_fails). Names are taken to identify files; reads and writes of open files do not fail; flag.Parse and encoding/json are not modelled.",
"C88":"Proved for the warnings that the codec collects: they name exactly the classes and properties whose values have different types (C88_collects_partial), and a property is lost exactly if there is such a warning, or it is a unique id in a model (C88_lost_partial). False of the code: the encoder overwrites them and returns none (C88_silent, C88_reports_fails).",
"C89":"C89_message: what stands before the message of the cause; C89_context, C89_layers: it can be read back; C89_fields: the errors that wrap nothing; C89_unwrap: Unwrap; C89_panics_iff: exactly when Error panics; C89_limits: negative offsets and unprintable bytes of signatures are not told.",
"C90":"C90_resaved_partial: everything but the order of the entries within the metadata chunk; C90_same_bytes_partial: identical bytes with at most one entry. False otherwise: C90_metadata_order_fails (comparison of the key of one entry with the value of the other), C90_optional_fails (optional values of interleaved types are lost).",
"C91":"C91_same_file: for all pairs of trees; C91_root_copy_partial, C91_instance_copy_partial: for copies. False for copies of roots with metadata and of Fonts whose CachedFaceId is not the Family: C91_copy_fails.",
"C92":"C92_same_bytes_partial: for all trees whose values are Settled and whose references stay in the tree; C92_settles_partial: from the second time on for all trees that can be read back; C92_numbers: exactly which numbers are stable. False for carriage returns (C92_cr_fails, C92_names_fails), the doubles +-202402254*2^-1074 (C92_double_fails), large tokens and BrickColors (C92_number_fails), some Fonts and Optionals (C92_font_fails, C92_optional_fails), references out of the tree or not written (C92_reference_fails).",
"C93":"C93_same_file, C93_same_every_time: in full for trees; C93_root_copy_partial, C93_instance_copy_partial: copies without metadata and Fonts whose CachedFaceId is not the Family (C93_copy_fails). Without different References the file depends on the random source (C93_references_fails).",
"C94":"",
"C95":"False for declared Optionals: C95_optional_fails. C95_binary_iff says exactly which declared trees can be saved as a binary file; C95_xml_saved_partial leaves out texts that XML cannot have (carriage returns in names and references, the end of a CDATA section), see C42_cdata_fails.",
"C96":"The document is what the parser of the library reads from the file (C41, C37 to C40 relate that to the bytes).",
"C97":"Endless recursion is a stack overflow in Go, which ends the program; the model has it as a panic: its recursions are bounded by the number of instances, which a finite structure cannot exceed in depth. `Fresh` as in C29.",
"C98":"The values of properties are given by JsonForm.Reads (Spec/JsonForm.lean, C100). Names in an object of properties are distinct, as in a Go map. An object with children panics (C52), so that no instance that is read has children. Two objects with the same reference are merged into one instance that is listed twice: C98_read_fails.",
"C99":"The format is that of Spec/Wire.lean and Spec/WireValue.lean, stated directly as lists of bytes without the model's functions; the compressed content of a frame is whatever the compressor yields. C99_read and C99_decode need a compressor without loss.",
"C100":"The form is that of Spec/JsonForm.lean, with the keys and the names of types written out. Go's conversions between numbers (float32 to float64, integers to float64 and back) are used in the specification as they are defined by the language; base64 and quoting of the text of JSON are not part of this package's code.",
"C101":"The text is that of Spec/XmlText.lean. The significant digits of numbers with a fraction are those of strconv.FormatFloat (a parameter here; modelled exactly by goFloat). What is read from a text is given by C79 and C80. Deviations of the code from what one expects of a value are part of the specification and named there: BrickColor as int, the direction of a Ray, Optionals that are no CFrames.",
"C102":"For JSON the two results are the same up to the order of fields, and the same text if encoding/json does not depend on that order (it sorts the keys). The binary encoder changes no instance; C17 is about its file.",
"C103":"The content of a shared string, which many values share, counts once for each chunk's list and not for each value. The compressed payload of a chunk may be much smaller than the decompressed one; the theorem compares with the decompressed file.",
"C104":"INST chunks are excluded: later chunks depend on them. The converse (that a chunk can be added) is not claimed: a chunk that does not fit makes Decode fail.",
"C105":"Proved for all chunks but those of properties whose elements are interleaved, CFrames, and Optionals of these; false of the code for interleaved elements: the elements are told apart by the number of bytes, so that the bytes of different elements get mixed up (C105_values_fails).",
"C106":"the chunks that have nothing to do with each other are told by what they have an effect on, as in C104; PROP and SSTR chunks cannot be swapped, as a PROP chunk takes the contents from the SSTR chunks before it; neither can chunks that set the same property, of which the last one counts (C106_same_property)",
"C107":"the decoded heaps are equal, with the numbers of the instances; what counts within a value (there a comment may count: C107_comment_counts) is compared exactly; the order of what counts is the subject of C108",
"C108":"the instances have the same numbers in both trees; properties and metadata are compared as maps",
"C109":"instances are compared by their numbers in the order of the document, leaving out those of the replaced Items; an Item that comes later takes over the references to its referent (C109_same_referent)",
"C110":"DistinctFields holds of everything encoding/json yields, whose objects are maps; encoding/json itself is a parameter (C110_text)",
"C111":"composition of C98, C65, C41 and C48/C66; a root read from JSON has no metadata and no nested instances (C52)",
"C112":"composition of C98, C19 and C11-C16; a root read from JSON has no metadata and no nested instances (C52); when encoding panics is C98_binary_panics_iff",
"C113":"composition of C98, C97, C52 and C100; values that do not come back are those of C51_exact",
"C114":"composition of C70, C97 and C100; every instance that a value refers to is in the tree (xml_mentions)",
"C115":"composition of C68/C69, C97 and C100; files with cycles are those of C69_trees_fails; the model of the JSON package names instances by natural numbers, `placed` translates",
"C76":"Decoder.Decode and Decompress against any io.Reader, with io.ReadFull and io.ReadAll modelled; the number of calls of Read is not bounded (the theorems hold from some number of steps on). io.ErrUnexpectedEOF is not distinguished from io.EOF.",
"C75":"The offset is at least the number of bytes that have arrived, and equal to it within the header; the full property is false of the code, which counts payloads twice (C75_offset_fails). C75_exact: the offset is the bytes that have arrived plus the payloads of all chunks begun, the number of which is that of the calls of the writer; it is right exactly if the header fails.",
"C70":"For every accepted document. The meaning of one property tag is that of the function getProperty of the model, the subject of C44-C46, C50 and C66.",
}

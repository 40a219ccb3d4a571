{
 "claims": [
  {
   "property": "C01",
   "status": "proved",
   "theorems": [
    "Props.C01_value_roundtrip",
    "Props.C01_value_roundtrip_exact",
    "Props.C01_bytes_injective"
   ],
   "note": "Optional is not a value kind of its own in the code (it exists only as an array, see C06). Fields the format does not store (rotation of a special-id CFrame, fields of PhysicalProperties without custom physics) come back as zero: SameStored."
  },
  {
   "property": "C02",
   "status": "proved",
   "theorems": [
    "Props.C02_bytesLen",
    "Props.C02_truncated",
    "Props.C02_never_panics",
    "Props.C02_consumes_at_most"
   ],
   "note": "Truncation, totality and length, for all types."
  },
  {
   "property": "C03",
   "status": "proved",
   "theorems": [
    "Props.C03_zigzag32_spec",
    "Props.C03_zigzag64_spec",
    "Props.C03_inverse",
    "Props.C03_float_spec"
   ],
   "note": "Zigzag specified on mathematical integers."
  },
  {
   "property": "C04",
   "status": "proved",
   "theorems": [
    "Props.C04_interleave_layout",
    "Props.C04_deinterleave_interleave",
    "Props.C04_interleave_deinterleave",
    "Props.C04_bad_length",
    "Props.C04_empty_panics"
   ],
   "note": "For count >= 1; the code panics (division by zero) on an empty buffer: C04_empty_panics."
  },
  {
   "property": "C05",
   "status": "proved",
   "theorems": [
    "Props.C05_array_roundtrip",
    "Props.C05_refs_roundtrip",
    "Props.C05_empty_interleaved_panics"
   ],
   "note": "For non-empty arrays (the encoder only builds arrays of non-empty groups); an empty interleaved array panics: C05_empty_interleaved_panics."
  },
  {
   "property": "C06",
   "status": "partial",
   "theorems": [
    "Props.C06_optional_roundtrip_partial",
    "Props.C06_interleaved_fails",
    "Props.C06_flags"
   ],
   "note": "Proved for all non-interleaved element types (CFrame included). False for interleaved element types: C06_interleaved_fails."
  },
  {
   "property": "C07",
   "status": "proved",
   "theorems": [
    "Props.C07_inst",
    "Props.C07_parent",
    "Props.C07_parent_mismatch",
    "Props.C07_meta",
    "Props.C07_shared",
    "Props.C07_end",
    "Props.C07_prop",
    "Props.C07_prop_optional",
    "Props.C07_prop_empty"
   ],
   "note": "Strings and arrays shorter than 2^32 (id arrays shorter than 2^30: the code computes n*4 in uint32)."
  },
  {
   "property": "C08",
   "status": "proved",
   "theorems": [
    "Props.C08_chunk_roundtrip",
    "Props.C08_frames_roundtrip",
    "Props.C08_frames_unique",
    "Props.C08_file_roundtrip"
   ],
   "note": "For every lossless lz4 (a parameter of the model)."
  },
  {
   "property": "C09",
   "status": "proved",
   "theorems": [
    "Props.C09_decompress",
    "Props.C09_output_frames",
    "Props.C09_only_well_framed",
    "Props.C09_idempotent"
   ],
   "note": ""
  },
  {
   "property": "C10",
   "status": "proved",
   "theorems": [
    "Props.C10_decode_decompressed"
   ],
   "note": ""
  },
  {
   "property": "C11",
   "status": "proved",
   "theorems": [
    "Props.C11_same_tree"
   ],
   "note": "For trees (no instance shared, no cycles) without chunks of 4 GiB or more, Optional values only of types the format can store (Encodable)."
  },
  {
   "property": "C12",
   "status": "partial",
   "theorems": [
    "Props.C12_values_partial",
    "Props.C12_optional_int_fails"
   ],
   "note": "Normalisations listed in Spec.Kept (string kinds become String, sign of zero in axis-aligned rotations, PhysicalProperties without custom physics). Not proved, because false, for Optional values of interleaved types: C12_optional_int_fails."
  },
  {
   "property": "C13",
   "status": "proved",
   "theorems": [
    "Props.C13_references"
   ],
   "note": ""
  },
  {
   "property": "C14",
   "status": "proved",
   "theorems": [
    "Props.C14_preserved",
    "Props.C14_stored_once"
   ],
   "note": "Under the assumption that the 16-byte hash has no collision among the shared strings of the tree."
  },
  {
   "property": "C15",
   "status": "partial",
   "theorems": [
    "Props.C15_defaults_partial",
    "Props.C15_missing_exact",
    "Props.C15_missing_reference_fails"
   ],
   "note": "Zero values proved for all types but Reference and SharedString, for which the code stores index 0 instead: the decoded value is a reference to the first instance, or one of the shared strings of the tree, the same for all (C15_missing_exact, C15_missing_reference_fails)."
  },
  {
   "property": "C16",
   "status": "proved",
   "theorems": [
    "Props.C16_services",
    "Props.C16_model_chunks"
   ],
   "note": ""
  },
  {
   "property": "C17",
   "status": "partial",
   "theorems": [
    "Props.C17_same_chunks_partial",
    "Props.C17_same_bytes_partial",
    "Props.C17_metadata_order_fails"
   ],
   "note": "Everything but the order of the entries in the metadata chunk is proved independent of iteration order; the metadata order is not (the comparator compares a key with a value): C17_metadata_order_fails."
  },
  {
   "property": "C18",
   "status": "proved",
   "theorems": [
    "Props.C18_metadata"
   ],
   "note": ""
  },
  {
   "property": "C19",
   "status": "partial",
   "theorems": [
    "Props.C19_no_panic_partial",
    "Props.C19_uncompressed_succeeds_partial",
    "Props.C19_invalid_optional_fails",
    "Props.C19_mixed_optionals_fails",
    "Props.C19_panics_iff",
    "Props.C19_uncompressed_iff"
   ],
   "note": "C19_panics_iff says exactly when encoding a tree of fewer than 2^31 instances panics (Optionals without a type, of different types, or of Optionals, with the same property of the same class), so the full property is false of the code: C19_invalid_optional_fails, C19_mixed_optionals_fails. Structures that are not trees: C97."
  },
  {
   "property": "C20",
   "status": "proved",
   "theorems": [
    "Props.C20_instance_ids",
    "Props.C20_class_ids",
    "Props.C20_parent_links",
    "Props.C20_property_arrays",
    "Props.C20_no_dangling",
    "Props.C20_accepts_iff",
    "Props.C20_reads_iff"
   ],
   "note": "A PROP chunk naming a class without INST chunk is not an error in the code: it is skipped with a warning. C20_reads_iff and C20_accepts_iff say exactly which files are read and which are accepted."
  },
  {
   "property": "C21",
   "status": "partial",
   "theorems": [
    "Props.C21_panics_iff",
    "Props.C21_no_panic_partial",
    "Props.C21_length_overflow_panics",
    "Props.C21_short_cframe_panics",
    "Props.C21_optional_reference_panics"
   ],
   "note": "C21_panics_iff says exactly, for every byte stream, when the decoder panics: a frame with a compressed length within 4 of 2^32, CFrames with cut positions, or an Optional that is present and holds a reference, a shared string or an absent Optional. So the full property is false of the code (C21_length_overflow_panics, C21_short_cframe_panics, C21_optional_reference_panics)."
  },
  {
   "property": "C22",
   "status": "proved",
   "theorems": [
    "Props.C22_binary_iff",
    "Props.C22_xml_iff",
    "Props.C22_other_rejected",
    "Props.C22_xml_complete",
    "Props.C22_version",
    "Props.C22_reserved"
   ],
   "note": ""
  },
  {
   "property": "C23",
   "status": "proved",
   "theorems": [
    "Props.C23_unknown_chunk_ignored"
   ],
   "note": ""
  },
  {
   "property": "C24",
   "status": "proved",
   "theorems": [
    "Props.C24_malformed_chunk_skipped",
    "Props.C24_warning"
   ],
   "note": ""
  },
  {
   "property": "C25",
   "status": "proved",
   "theorems": [
    "Props.C25_trailing_irrelevant",
    "Props.C25_append"
   ],
   "note": ""
  },
  {
   "property": "C26",
   "status": "proved",
   "theorems": [
    "Props.C26_id_iff_rotation",
    "Props.C26_axis_aligned_iff",
    "Props.C26_count",
    "Props.C26_table_generated",
    "Props.C26_round_trip"
   ],
   "note": "Floats are compared as the code does (==, on bit patterns with +0 = -0)."
  },
  {
   "property": "C27",
   "status": "partial",
   "theorems": [
    "Props.C27_instance_copy_partial",
    "Props.C27_root_copy_partial",
    "Props.C27_copy_is_separate",
    "Props.C27_copy_returns",
    "Props.C27_instance_copy_returns",
    "Props.C27_instance_copy_exact",
    "Props.C27_root_copy_exact",
    "Props.C27_font_fails"
   ],
   "note": "C27_instance_copy_exact and C27_root_copy_exact say what is made for every tree, and that it is a faithful copy just if no Font has a CachedFaceId that differs from its Family; for these the code is wrong: C27_font_fails. Termination (C27_copy_returns) needs a random source that does not repeat itself indefinitely."
  },
  {
   "property": "C28",
   "status": "proved",
   "theorems": [
    "Props.C28_references_retargeted",
    "Props.C28_root_references_retargeted",
    "Props.C28_references_unique"
   ],
   "note": "The counterpart of an instance is determined by the shape of the trees (Spec.Counterparts). References inside Optional values are kept as they are."
  },
  {
   "property": "C29",
   "status": "proved",
   "theorems": [
    "Props.C29_unique_references",
    "Props.C29_get_frame",
    "Props.C29_get_returns"
   ],
   "note": "Whenever Get returns; it returns if the random source produces a fresh reference within the given number of attempts (C29_get_returns)."
  },
  {
   "property": "C30",
   "status": "partial",
   "theorems": [
    "Props.C30_root_copy_partial",
    "Props.C30_metadata_fails"
   ],
   "note": "The instances are proved (Fonts as in C27); the metadata is lost in the code: C30_metadata_fails."
  },
  {
   "property": "C31",
   "status": "partial",
   "theorems": [
    "Props.C31_copy_is_fresh",
    "Props.C31_copy_equal_partial",
    "Props.C31_copy_exact",
    "Props.C31_independent",
    "Props.C31_font_fails"
   ],
   "note": "C31_copy_exact says what the copy of every value is, and that it is equal to the original just if no Font has a CachedFaceId that differs from its Family; for these the code is wrong: C31_font_fails. Independence proved for all."
  },
  {
   "property": "C32",
   "status": "proved",
   "theorems": [
    "Props.C32_empty_reference",
    "Props.C32_resolve"
   ],
   "note": ""
  },
  {
   "property": "C33",
   "status": "proved",
   "theorems": [
    "Props.C33_format",
    "Props.C33_injective"
   ],
   "note": ""
  },
  {
   "property": "C34",
   "status": "proved",
   "theorems": [
    "Props.C34_name_round_trip",
    "Props.C34_other_strings_invalid",
    "Props.C34_names",
    "Props.C34_new_value"
   ],
   "note": ""
  },
  {
   "property": "C35",
   "status": "proved",
   "theorems": [
    "Props.C35_text_is_hex",
    "Props.C35_text_injective",
    "Props.C35_xml"
   ],
   "note": ""
  },
  {
   "property": "C36",
   "status": "proved",
   "theorems": [
    "Props.C36_font_style",
    "Props.C36_font_weight",
    "Props.C36_invalid"
   ],
   "note": ""
  },
  {
   "property": "C37",
   "status": "proved",
   "theorems": [
    "Props.C37_append",
    "Props.C37_append_append",
    "Props.C37_return",
    "Props.C37_union",
    "Props.C37_union_union",
    "Props.C37_message",
    "Props.C37_message_short"
   ],
   "note": ""
  },
  {
   "property": "C38",
   "status": "proved",
   "theorems": [
    "Props.C38_text",
    "Props.C38_attribute",
    "Props.C38_no_cr",
    "Props.C38_cr_fails"
   ],
   "note": "The exact normalisation is Spec.normText / Spec.normNewlines; C38_cr_fails shows it is not the identity."
  },
  {
   "property": "C39",
   "status": "partial",
   "theorems": [
    "Props.C39_document_partial",
    "Props.C39_read_back",
    "Props.C39_comment_fails",
    "Props.C39_empty_fails",
    "Props.C39_cr_fails"
   ],
   "note": "Proved for documents with valid names, without carriage returns, comments and CDATA (Plain); C39_read_back gives what is read back for all documents with well-formed names. False in general: C39_comment_fails, C39_empty_fails, C39_cr_fails."
  },
  {
   "property": "C40",
   "status": "partial",
   "theorems": [
    "Props.C40_first",
    "Props.C40_missing",
    "Props.C40_other_unaffected",
    "Props.C40_set_new_partial",
    "Props.C40_remove",
    "Props.C40_update_fails"
   ],
   "note": "SetAttrValue does not change the value of an attribute that exists: C40_update_fails. Proved: setting a new attribute, removing one, no effect on others."
  },
  {
   "property": "C41",
   "status": "partial",
   "theorems": [
    "Props.C41_accepted_partial",
    "Props.C41_cdata_fails"
   ],
   "note": "Proved for trees without a ProtectedString that contains \"]]>\", for which it is false: C41_cdata_fails. The parser stops before the suffix given in the layout."
  },
  {
   "property": "C42",
   "status": "partial",
   "theorems": [
    "Props.C42_strings_partial",
    "Props.C42_cdata_fails",
    "Props.C42_cr_fails"
   ],
   "note": "Proved up to the normalisation of line ends (Spec.normText), which is the identity without carriage returns; false with carriage returns and for ]]> in ProtectedString: C42_cr_fails, C42_cdata_fails."
  },
  {
   "property": "C43",
   "status": "proved",
   "theorems": [
    "Props.C43_value",
    "Props.C43_shared"
   ],
   "note": ""
  },
  {
   "property": "C44",
   "status": "partial",
   "theorems": [
    "Props.C44_integers_partial",
    "Props.C44_brickcolor_fails",
    "Props.C44_token_fails"
   ],
   "note": "False for BrickColor (decoded as Int) and tokens from 2^31 on: C44_brickcolor_fails, C44_token_fails."
  },
  {
   "property": "C45",
   "status": "partial",
   "theorems": [
    "Props.C45_composites_partial",
    "Props.C45_ray_fails",
    "Props.C45_range_fails"
   ],
   "note": "Numbers come back with the same bits, except that NaNs become the standard NaN; proved with an exact model of the number formatting and parsing of strconv (Go/Decimal). False for the direction of a Ray and the seventh digit of a NumberRange: C45_ray_fails, C45_range_fails."
  },
  {
   "property": "C46",
   "status": "partial",
   "theorems": [
    "Props.C46_written_tag_partial",
    "Props.C46_brickcolor_fails",
    "Props.C46_canonical",
    "Props.C46_case_insensitive",
    "Props.C46_decoded_type"
   ],
   "note": "False for BrickColor, which is written with the tag int: C46_brickcolor_fails."
  },
  {
   "property": "C47",
   "status": "proved",
   "theorems": [
    "Props.C47_references"
   ],
   "note": "For trees without carriage returns in references; with the correspondence of C48."
  },
  {
   "property": "C48",
   "status": "proved",
   "theorems": [
    "Props.C48_same_tree",
    "Props.C48_metadata"
   ],
   "note": "For trees without carriage returns in references and property names, without ]]> in ProtectedString and without hash collisions; class names and metadata up to normalisation of line ends. IsService is not stored in XML."
  },
  {
   "property": "C49",
   "status": "proved",
   "theorems": [
    "Props.C49_preserved",
    "Props.C49_written_once"
   ],
   "note": "Under the assumption that the hash has no collision among the shared strings of the tree."
  },
  {
   "property": "C50",
   "status": "partial",
   "theorems": [
    "Props.C50_valid_unaffected",
    "Props.C50_discarded",
    "Props.C50_zero_partial",
    "Props.C50_content_fails"
   ],
   "note": "False for Content with a text, which is dropped in both modes: C50_content_fails."
  },
  {
   "property": "C51",
   "status": "partial",
   "theorems": [
    "Props.C51_values_partial",
    "Props.C51_reference",
    "Props.C51_binary_fails",
    "Props.C51_optional_fails",
    "Props.C51_uniqueId_font_fails",
    "Props.C51_int64_fails",
    "Props.C51_exact"
   ],
   "note": "Proved for the values listed in Spec.JsonSupported (bits of NaNs aside). False for binary and shared strings whose length is not a multiple of three (C51_binary_fails), Optional (C51_optional_fails), UniqueId and Font (C51_uniqueId_font_fails), 64 bit integers that are not exact as a double (C51_int64_fails). C51_exact says exactly which values come back."
  },
  {
   "property": "C52",
   "status": "partial",
   "theorems": [
    "Props.C52_flat_partial",
    "Props.C52_text_partial",
    "Props.C52_children_fails",
    "Props.C52_rejected",
    "Props.C52_no_panic_partial",
    "Props.C52_shape_fails",
    "Props.C52_panics_iff",
    "Props.C52_back_panics_iff"
   ],
   "note": "Round trip proved for roots whose instances have no children; with children the code panics: C52_children_fails, and C52_back_panics_iff says of which roots the conversion back panics. Metadata is not stored. Rejection of wrong versions and shapes proved for all documents; C52_panics_iff says exactly which documents make the conversion panic (children, values that lack parts of their types, bad Optionals); examples C52_shape_fails. encoding/json is a parameter (C52_text_partial)."
  },
  {
   "property": "C53",
   "status": "proved",
   "theorems": [
    "Props.C53_declared",
    "Props.C53_reference",
    "Props.C53_order",
    "Props.C53_returns",
    "Props.C53_instance",
    "Props.C53_elements"
   ],
   "note": "Values are those of C54 (Documented, not Refused). A declaration that makes evaluation panic is characterised exactly (C53_returns). Pointers of existing instances in the declarations are taken to be below base."
  },
  {
   "property": "C54",
   "status": "partial",
   "theorems": [
    "Props.C54_type_partial",
    "Props.C54_documented_partial",
    "Props.C54_same",
    "Props.C54_none",
    "Props.C54_count",
    "Props.C54_panic",
    "Props.C54_nil",
    "Props.C54_strings_fails",
    "Props.C54_double_fails",
    "Props.C54_cframe_fails",
    "Props.C54_rect_fails",
    "Props.C54_numberSequence_fails",
    "Props.C54_colorSequence_fails"
   ],
   "note": "The type is right except for strings of the types BinaryString, ProtectedString, Content and all numbers of type Double: C54_strings_fails, C54_double_fails. The documented meaning (Spec.Documented, transcribed from the comment of Property) holds except for the cases in Spec.Refused, for each of which the code is shown to be wrong: C54_cframe_fails, C54_rect_fails, C54_numberSequence_fails, C54_colorSequence_fails and the two above. C54_panic: the one panic."
  },
  {
   "property": "C55",
   "status": "proved",
   "theorems": [
    "Props.C55_le16",
    "Props.C55_le32",
    "Props.C55_le64",
    "Props.C55_be32",
    "Props.C55_be64",
    "Props.C55_readLe32_value"
   ],
   "note": ""
  },
  {
   "property": "C56",
   "status": "proved",
   "theorems": [
    "Props.C56_value_types",
    "Props.C56_binary_types",
    "Props.C56_encoded_type",
    "Props.C56_decoded_type",
    "Props.C56_new_value",
    "Props.C56_ids",
    "Props.C56_toByte_injective",
    "Props.C56_decode_type"
   ],
   "note": ""
  },
  {
   "property": "C57",
   "status": "proved",
   "theorems": [
    "Props.C57_stats"
   ],
   "note": "Chunks that could not be parsed are not counted in Chunks (but are in ChunkTypes); DecoderStats.PropertyCount does not exist."
  },
  {
   "property": "C58",
   "status": "proved",
   "theorems": [
    "Props.C58_text",
    "Props.C58_printable_injective",
    "Props.C58_known",
    "Props.C58_lossy"
   ],
   "note": ""
  },
  {
   "property": "C59",
   "status": "proved",
   "theorems": [
    "Props.C59_faces_bits",
    "Props.C59_axes_bits",
    "Props.C59_faces_decode",
    "Props.C59_axes_decode",
    "Props.C59_xml_flags"
   ],
   "note": ""
  },
  {
   "property": "C60",
   "status": "proved",
   "theorems": [
    "Props.C60_split",
    "Props.C60_split_independent",
    "Props.C60_split_data",
    "Props.C60_wrap",
    "Props.C60_wrap_independent",
    "Props.C60_wrap_data"
   ],
   "note": ""
  },
  {
   "property": "C61",
   "status": "proved",
   "theorems": [
    "Props.C61_total"
   ],
   "note": ""
  },
  {
   "property": "C62",
   "status": "proved",
   "theorems": [
    "Props.C62_root"
   ],
   "note": ""
  },
  {
   "property": "C63",
   "status": "partial",
   "theorems": [
    "Props.C63_decodes_partial",
    "Props.C63_font_fails",
    "Props.C63_panics_iff",
    "Props.C63_otherwise"
   ],
   "note": "The property is false of the code (C63_font_fails: a Font with a Weight out of range before its Family makes it dereference nil). C63_panics_iff says exactly which documents panic, C63_otherwise what happens with all others: nothing is missing but the truth of the claim for these fonts."
  },
  {
   "property": "C64",
   "status": "proved",
   "theorems": [
    "Props.C64_deterministic"
   ],
   "note": ""
  },
  {
   "property": "C65",
   "status": "proved",
   "theorems": [
    "Props.C65_returns",
    "Props.C65_instances_kept"
   ],
   "note": ""
  },
  {
   "property": "C66",
   "status": "partial",
   "theorems": [
    "Props.C66_exact",
    "Props.C66_altered",
    "Props.C66_mistyped_fails",
    "Props.C66_values_partial",
    "Props.C66_double_fails",
    "Props.C66_font_fails",
    "Props.C66_style_fails",
    "Props.C66_optional_fails"
   ],
   "note": "Proved for the values listed in Spec.XmlSupported up to Spec.XmlKept. C66_exact says what becomes of every other value too (Spec.XmlAltered), and C66_altered that it is never the one asked for. False for the others: C44_brickcolor_fails, C44_token_fails, C45_ray_fails, C66_font_fails, C66_style_fails, C66_optional_fails; Double keeps nine digits only: C66_double_fails."
  },
  {
   "property": "C67",
   "status": "proved",
   "theorems": [
    "Props.C67_names",
    "Props.C67_any_case",
    "Props.C67_round_trip",
    "Props.C67_other_strings",
    "Props.C67_order"
   ],
   "note": "strings.ToLower of strings that are not ASCII is a parameter."
  },
  {
   "property": "C68",
   "status": "proved",
   "theorems": [
    "Props.C68_instances",
    "Props.C68_properties",
    "Props.C68_links",
    "Props.C68_metadata"
   ],
   "note": "For every accepted file; quaternions and lz4 are parameters."
  },
  {
   "property": "C69",
   "status": "partial",
   "theorems": [
    "Props.C69_trees_iff",
    "Props.C69_trees_partial",
    "Props.C69_trees_fails"
   ],
   "note": "False in general (C69_trees_fails). C69_trees_iff says exactly for which accepted files it holds: no two parent links connected with the root have the same child."
  },
  {
   "property": "C70",
   "status": "proved",
   "theorems": [
    "Props.C70_instances",
    "Props.C70_metadata",
    "Props.C70_no_root"
   ],
   "note": "For every accepted document. The meaning of one property tag is that of the function getProperty of the model, the subject of C44-C46, C50 and C66."
  },
  {
   "property": "C71",
   "status": "partial",
   "theorems": [
    "Props.C71_converts_partial",
    "Props.C71_same_tree_partial",
    "Props.C71_converts_iff",
    "Props.C71_panics_iff",
    "Props.C71_converts_fails"
   ],
   "note": "Proved for every accepted document whose Optional tags are all of type CFrame; the full property is false of the code (C71_converts_fails: an empty tag OptionalThing makes the binary encoder panic); C71_converts_iff and C71_panics_iff say exactly for which decoded trees. Fewer than 2^31 instances, chunks below 4 GiB, no collision of the hash of shared strings."
  },
  {
   "property": "C72",
   "status": "partial",
   "theorems": [
    "Props.C72_converts_partial",
    "Props.C72_same_tree_partial",
    "Props.C72_converts_fails"
   ],
   "note": "Proved for every accepted file whose parent links (those connected with the root) name no child twice; the full property is false of the code (C72_converts_fails: the tree can contain itself and the encoder overflows the stack). For decoding back: no carriage returns in the names of properties, no hash collision; values outside XmlSupported (see C66) may change."
  },
  {
   "property": "C73",
   "status": "proved",
   "theorems": [
    "Props.C73_delivers",
    "Props.C73_reliable",
    "Props.C73_rejects",
    "Props.C73_panics"
   ],
   "note": "bufio.Writer is modelled from its source; the writer is any state machine that keeps the contract of io.Writer."
  },
  {
   "property": "C74",
   "status": "partial",
   "theorems": [
    "Props.C74_decompress_partial",
    "Props.C74_delivers_partial",
    "Props.C74_reliable",
    "Props.C74_rejects_partial",
    "Props.C74_delivers_fails"
   ],
   "note": "Proved if no error of the writer is an empty errors.Errors; such an error is dropped by encodeError and success is reported (C74_delivers_fails)."
  },
  {
   "property": "C75",
   "status": "partial",
   "theorems": [
    "Props.C75_exact",
    "Props.C75_offset_partial",
    "Props.C75_offset_fails"
   ],
   "note": "The offset is at least the number of bytes that have arrived, and equal to it within the header; the full property is false of the code, which counts payloads twice (C75_offset_fails). C75_exact: the offset is the bytes that have arrived plus the payloads of all chunks begun, the number of which is that of the calls of the writer; it is right exactly if the header fails."
  },
  {
   "property": "C76",
   "status": "proved",
   "theorems": [
    "Props.C76_reads",
    "Props.C76_broken",
    "Props.C76_pieces",
    "Props.C76_decompress",
    "Props.C76_decompress_broken"
   ],
   "note": "Decoder.Decode and Decompress against any io.Reader, with io.ReadFull and io.ReadAll modelled; the number of calls of Read is not bounded (the theorems hold from some number of steps on). io.ErrUnexpectedEOF is not distinguished from io.EOF."
  },
  {
   "property": "C77",
   "status": "partial",
   "theorems": [
    "Props.C77_reads",
    "Props.C77_buffered",
    "Props.C77_pieces",
    "Props.C77_broken_partial",
    "Props.C77_lost_fails",
    "Props.C77_suffix_fails",
    "Props.C77_stall_fails"
   ],
   "note": "The decoder transcribed byte by byte (getc, ungetc, sticky error, line, tag stack, warnings), with bufio.Reader, is shown to do what the function on byte strings does. False parts: an error of the reader after the root tag is swallowed (C77_suffix_fails), one after text or between tags is replaced by an unmatched tag error (C77_lost_fails), a reader that returns nothing 100 times is given up (C77_stall_fails). So the part on failing readers is C77_broken_partial."
  },
  {
   "property": "C78",
   "status": "proved",
   "theorems": [
    "Props.C78_warnings",
    "Props.C78_errors",
    "Props.C78_local",
    "Props.C78_before"
   ],
   "note": "For the parser; the warnings of the codec have no line. The steps of the decoder are bounded by a fuel argument; the error for an exhausted bound is shown never to occur from 2*n+5 on."
  },
  {
   "property": "C79",
   "status": "proved",
   "theorems": [
    "Props.C79_accepts",
    "Props.C79_rejects",
    "Props.C79_unambiguous",
    "Props.C79_decode",
    "Props.C79_reference",
    "Props.C79_slash",
    "Props.C79_end_name",
    "Props.C79_no_value",
    "Props.C79_ampersand"
   ],
   "note": "The grammar is that of the format as it is read: C79_slash, C79_end_name, C79_no_value and C79_ampersand show where it differs from XML. Kernel-checked in both directions: what is written is read (by recursion on nodes) and what is read was written (by recursion on the steps of the parser)."
  },
  {
   "property": "C80",
   "status": "proved",
   "theorems": [
    "Props.C80_panics",
    "Props.C80_dropped",
    "Props.C80_type",
    "Props.C80_reads",
    "Props.C80_always",
    "Props.C80_one",
    "Props.C80_nothing",
    "Props.C80_cdata",
    "Props.C80_order",
    "Props.C80_cut",
    "Props.C80_uniqueId_cdata"
   ],
   "note": "The meaning is Spec.SaysValue / SaysProperty, proved equivalent to the decoder (C80_reads is an iff). Reading of fractional numbers (strconv.ParseFloat) and base64 are those of the model of the Go library. Quirks included in the specification: C80_cut (components after an integer out of range are not read), C80_uniqueId_cdata."
  },
  {
   "property": "C81",
   "status": "partial",
   "theorems": [
    "Props.C81_items_partial",
    "Props.C81_no_item_lost",
    "Props.C81_binary_partial",
    "Props.C81_content",
    "Props.C81_font",
    "Props.C81_others",
    "Props.C81_properties_fails",
    "Props.C81_encode",
    "Props.C81_writer",
    "Props.C81_writer_warns",
    "Props.C81_writer_fails"
   ],
   "note": "Proved for Items (one warning per Item without a class, an instance for every other one) and for binary data; the encoder is shown to give no warning for any tree; the document writer below it warns just if it leaves something out, and writes the document as if that were not there (C81_writer, C81_writer_warns; with indentation only up to white space, C81_writer_fails). False for properties, which are dropped silently: C81_properties_fails. Exact for Fonts whose tag says a value. The warnings of the parser are those of C78."
  },
  {
   "property": "C82",
   "status": "proved",
   "theorems": [
    "Props.C82_counts",
    "Props.C82_largest",
    "Props.C82_largest_lengths",
    "Props.C82_largest_ties",
    "Props.C82_case",
    "Props.C82_case_counts"
   ],
   "note": "C82_counts: all counters for every tree and iteration order; C82_largest: what the list of the largest properties contains; C82_largest_lengths: its lengths are determined (C82_largest_ties: the entries are not, when lengths are equal); C82_case, C82_case_counts: a concrete tree. Not modelled: the JSON text of the statistics, nil values, the flags and files of main."
  },
  {
   "property": "C83",
   "status": "proved",
   "theorems": [
    "Props.C83_total",
    "Props.C83_determines",
    "Props.C83_values"
   ],
   "note": "The shortest text of floats is modelled exactly. Excluded: files with errored chunks, whose inner part is not modelled, and optionals of optionals, on which Dump can panic (C84_panics_fails). The bytes after the END chunk are not shown."
  },
  {
   "property": "C84",
   "status": "partial",
   "theorems": [
    "Props.C84_reports_partial",
    "Props.C84_delivers_partial",
    "Props.C84_delivers_fails",
    "Props.C84_panics_fails",
    "Props.C84_errored_fails",
    "Props.C84_udim2_fails",
    "Props.C84_panics_iff",
    "Props.C84_returns",
    "Props.C84_lookup",
    "Props.C84_lost_class"
   ],
   "note": "Warnings, errors and delivery are proved (C84_reports_partial, C84_delivers_partial). False of the code: the error of Flush is ignored (C84_delivers_fails), Dump panics on optionals of absent optionals (C84_panics_fails), even in a chunk that could not be decoded and that Decode only warns of (C84_errored_fails); C84_panics_iff says exactly when Dump panics, for errored chunks by a model of what was decoded of them (Rbxl/Partial, C84_lookup), and C84_returns gives a condition under which files with errored chunks are shown; an instance chunk that could not be decoded still names the class of later property chunks (C84_lost_class), the labels of UDim2 are exchanged (C84_udim2_fails)."
  },
  {
   "property": "C85",
   "status": "partial",
   "theorems": [
    "Props.C85_text_partial",
    "Props.C85_float_reads",
    "Props.C85_some",
    "Props.C85_reference",
    "Props.C85_text_fails"
   ],
   "note": "Exact (iff) for all types except references and optionals; optionals with values reduce to their values, references need distinct reference strings other than \"<nil>\". What is missing is false of the code: C85_text_fails."
  },
  {
   "property": "C86",
   "status": "partial",
   "theorems": [
    "Props.C86_chunks",
    "Props.C86_prefix",
    "Props.C86_dropped",
    "Props.C86_silent_partial",
    "Props.C86_orphan_fails",
    "Props.C86_unlinked_fails"
   ],
   "note": "Exact list of warnings for every file. What is missing is false of the code: instances without a valid parent disappear silently (C86_orphan_fails, C86_unlinked_fails)."
  },
  {
   "property": "C87",
   "status": "partial",
   "theorems": [
    "Props.C87_names",
    "Props.C87_works",
    "Props.C87_refused",
    "Props.C87_dcomp",
    "Props.C87_reports_partial",
    "Props.C87_error_fails",
    "Props.C87_in_place_fails",
    "Props.C87_stat_fails"
   ],
   "note": "Streams, other files, refused files and warnings are proved. False of the code: the message of an error is never shown (C87_error_fails), a file processed in place is emptied (C87_in_place_fails), rbxfile-stat writes statistics for files that it cannot decode (C87_stat_fails). Names are taken to identify files; reads and writes of open files do not fail; flag.Parse and encoding/json are not modelled."
  },
  {
   "property": "C88",
   "status": "partial",
   "theorems": [
    "Props.C88_collects_partial",
    "Props.C88_lost_partial",
    "Props.C88_silent",
    "Props.C88_reports_fails"
   ],
   "note": "Proved for the warnings that the codec collects: they name exactly the classes and properties whose values have different types (C88_collects_partial), and a property is lost exactly if there is such a warning, or it is a unique id in a model (C88_lost_partial). False of the code: the encoder overwrites them and returns none (C88_silent, C88_reports_fails)."
  },
  {
   "property": "C89",
   "status": "proved",
   "theorems": [
    "Props.C89_message",
    "Props.C89_context",
    "Props.C89_layers",
    "Props.C89_unwrap",
    "Props.C89_panics_iff",
    "Props.C89_fields",
    "Props.C89_limits"
   ],
   "note": "C89_message: what stands before the message of the cause; C89_context, C89_layers: it can be read back; C89_fields: the errors that wrap nothing; C89_unwrap: Unwrap; C89_panics_iff: exactly when Error panics; C89_limits: negative offsets and unprintable bytes of signatures are not told."
  },
  {
   "property": "C90",
   "status": "partial",
   "theorems": [
    "Props.C90_resaved_partial",
    "Props.C90_same_bytes_partial",
    "Props.C90_metadata_order_fails",
    "Props.C90_optional_fails"
   ],
   "note": "C90_resaved_partial: everything but the order of the entries within the metadata chunk; C90_same_bytes_partial: identical bytes with at most one entry. False otherwise: C90_metadata_order_fails (comparison of the key of one entry with the value of the other), C90_optional_fails (optional values of interleaved types are lost)."
  },
  {
   "property": "C91",
   "status": "partial",
   "theorems": [
    "Props.C91_same_file",
    "Props.C91_root_copy_partial",
    "Props.C91_instance_copy_partial",
    "Props.C91_copy_fails"
   ],
   "note": "C91_same_file: for all pairs of trees; C91_root_copy_partial, C91_instance_copy_partial: for copies. False for copies of roots with metadata and of Fonts whose CachedFaceId is not the Family: C91_copy_fails."
  },
  {
   "property": "C92",
   "status": "partial",
   "theorems": [
    "Props.C92_same_bytes_partial",
    "Props.C92_settles_partial",
    "Props.C92_numbers",
    "Props.C92_cr_fails",
    "Props.C92_double_fails",
    "Props.C92_number_fails",
    "Props.C92_font_fails",
    "Props.C92_reference_fails",
    "Props.C92_names_fails",
    "Props.C92_optional_fails"
   ],
   "note": "C92_same_bytes_partial: for all trees whose values are Settled and whose references stay in the tree; C92_settles_partial: from the second time on for all trees that can be read back; C92_numbers: exactly which numbers are stable. False for carriage returns (C92_cr_fails, C92_names_fails), the doubles +-202402254*2^-1074 (C92_double_fails), large tokens and BrickColors (C92_number_fails), some Fonts and Optionals (C92_font_fails, C92_optional_fails), references out of the tree or not written (C92_reference_fails)."
  },
  {
   "property": "C93",
   "status": "partial",
   "theorems": [
    "Props.C93_same_file",
    "Props.C93_same_every_time",
    "Props.C93_root_copy_partial",
    "Props.C93_instance_copy_partial",
    "Props.C93_references_fails",
    "Props.C93_copy_fails"
   ],
   "note": "C93_same_file, C93_same_every_time: in full for trees; C93_root_copy_partial, C93_instance_copy_partial: copies without metadata and Fonts whose CachedFaceId is not the Family (C93_copy_fails). Without different References the file depends on the random source (C93_references_fails)."
  },
  {
   "property": "C94",
   "status": "proved",
   "theorems": [
    "Props.C94_layout",
    "Props.C94_read",
    "Props.C94_numbers",
    "Props.C94_parents"
   ],
   "note": ""
  },
  {
   "property": "C95",
   "status": "partial",
   "theorems": [
    "Props.C95_trees",
    "Props.C95_binary_iff",
    "Props.C95_binary_saved",
    "Props.C95_xml_saved_partial",
    "Props.C95_optional_fails"
   ],
   "note": "False for declared Optionals: C95_optional_fails. C95_binary_iff says exactly which declared trees can be saved as a binary file; C95_xml_saved_partial leaves out texts that XML cannot have (carriage returns in names and references, the end of a CDATA section), see C42_cdata_fails."
  },
  {
   "property": "C96",
   "status": "proved",
   "theorems": [
    "Props.C96_layout"
   ],
   "note": "The document is what the parser of the library reads from the file (C41, C37 to C40 relate that to the bytes)."
  },
  {
   "property": "C97",
   "status": "proved",
   "theorems": [
    "Props.C97_binary_panics_iff",
    "Props.C97_binary_nil",
    "Props.C97_xml_returns_iff",
    "Props.C97_xml_layout",
    "Props.C97_json_returns_iff",
    "Props.C97_copy_returns_iff",
    "Props.C97_instance_copy_returns_iff",
    "Props.C97_binary_examples"
   ],
   "note": "Endless recursion is a stack overflow in Go, which ends the program; the model has it as a panic: its recursions are bounded by the number of instances, which a finite structure cannot exceed in depth. `Fresh` as in C29."
  },
  {
   "property": "C98",
   "status": "proved",
   "theorems": [
    "Props.C98_read",
    "Props.C98_finite",
    "Props.C98_trees_iff",
    "Props.C98_xml",
    "Props.C98_binary_panics_iff",
    "Props.C98_read_fails",
    "Props.C98_optional_fails"
   ],
   "note": "The values of properties are given by JsonForm.Reads (Spec/JsonForm.lean, C100). Names in an object of properties are distinct, as in a Go map. An object with children panics (C52), so that no instance that is read has children. Two objects with the same reference are merged into one instance that is listed twice: C98_read_fails."
  },
  {
   "property": "C99",
   "status": "proved",
   "theorems": [
    "Props.C99_tree",
    "Props.C99_file",
    "Props.C99_read",
    "Props.C99_decode"
   ],
   "note": "The format is that of Spec/Wire.lean and Spec/WireValue.lean, stated directly as lists of bytes without the model's functions; the compressed content of a frame is whatever the compressor yields. C99_read and C99_decode need a compressor without loss."
  },
  {
   "property": "C100",
   "status": "proved",
   "theorems": [
    "Props.C100_written",
    "Props.C100_unaltered",
    "Props.C100_read",
    "Props.C100_value",
    "Props.C100_names"
   ],
   "note": "The form is that of Spec/JsonForm.lean, with the keys and the names of types written out. Go's conversions between numbers (float32 to float64, integers to float64 and back) are used in the specification as they are defined by the language; base64 and quoting of the text of JSON are not part of this package's code."
  },
  {
   "property": "C101",
   "status": "proved",
   "theorems": [
    "Props.C101_text"
   ],
   "note": "The text is that of Spec/XmlText.lean. The significant digits of numbers with a fraction are those of strconv.FormatFloat (a parameter here; modelled exactly by goFloat). What is read from a text is given by C79 and C80. Deviations of the code from what one expects of a value are part of the specification and named there: BrickColor as int, the direction of a Ray, Optionals that are no CFrames."
  },
  {
   "property": "C102",
   "status": "proved",
   "theorems": [
    "Props.C102_xml",
    "Props.C102_xml_references",
    "Props.C102_json_form",
    "Props.C102_json",
    "Props.C102_json_references",
    "Props.C102_json_settled"
   ],
   "note": "For JSON the two results are the same up to the order of fields, and the same text if encoding/json does not depend on that order (it sorts the keys). The binary encoder changes no instance; C17 is about its file."
  },
  {
   "property": "C103",
   "status": "proved",
   "theorems": [
    "Props.C103_decompressed",
    "Props.C103_uncompressed",
    "Props.C103_instances",
    "Props.C103_xml"
   ],
   "note": "The content of a shared string, which many values share, counts once for each chunk's list and not for each value. The compressed payload of a chunk may be much smaller than the decompressed one; the theorem compares with the decompressed file."
  },
  {
   "property": "C104",
   "status": "proved",
   "theorems": [
    "Props.C104_chunk_effects",
    "Props.C104_property",
    "Props.C104_replace"
   ],
   "note": "INST chunks are excluded: later chunks depend on them. The converse (that a chunk can be added) is not claimed: a chunk that does not fit makes Decode fail."
  },
  {
   "property": "C105",
   "status": "partial",
   "theorems": [
    "Props.C105_chunk_partial",
    "Props.C105_dump_partial",
    "Props.C105_values_fails",
    "Props.C105_flags"
   ],
   "note": "Proved for all chunks but those of properties whose elements are interleaved, CFrames, and Optionals of these; false of the code for interleaved elements: the elements are told apart by the number of bytes, so that the bytes of different elements get mixed up (C105_values_fails)."
  },
  {
   "property": "C106",
   "status": "proved",
   "theorems": [
    "Props.C106_swap",
    "Props.C106_properties",
    "Props.C106_kinds",
    "Props.C106_same_property",
    "Props.C106_before_inst"
   ],
   "note": "the chunks that have nothing to do with each other are told by what they have an effect on, as in C104; PROP and SSTR chunks cannot be swapped, as a PROP chunk takes the contents from the SSTR chunks before it; neither can chunks that set the same property, of which the last one counts (C106_same_property)"
  },
  {
   "property": "C107",
   "status": "proved",
   "theorems": [
    "Props.C107_ignored",
    "Props.C107_comment_counts"
   ],
   "note": "the decoded heaps are equal, with the numbers of the instances; what counts within a value (there a comment may count: C107_comment_counts) is compared exactly; the order of what counts is the subject of C108"
  },
  {
   "property": "C108",
   "status": "proved",
   "theorems": [
    "Props.C108_order",
    "Props.C108_same_name"
   ],
   "note": "the instances have the same numbers in both trees; properties and metadata are compared as maps"
  },
  {
   "property": "C109",
   "status": "proved",
   "theorems": [
    "Props.C109_replaced",
    "Props.C109_accepted",
    "Props.C109_removed",
    "Props.C109_same_referent"
   ],
   "note": "instances are compared by their numbers in the order of the document, leaving out those of the replaced Items; an Item that comes later takes over the references to its referent (C109_same_referent)"
  },
  {
   "property": "C110",
   "status": "proved",
   "theorems": [
    "Props.C110_order",
    "Props.C110_iteration",
    "Props.C110_value",
    "Props.C110_text"
   ],
   "note": "DistinctFields holds of everything encoding/json yields, whose objects are maps; encoding/json itself is a parameter (C110_text)"
  },
  {
   "property": "C111",
   "status": "proved",
   "theorems": [
    "Props.C111_converts",
    "Props.C111_same_instances"
   ],
   "note": "composition of C98, C65, C41 and C48/C66; a root read from JSON has no metadata and no nested instances (C52)"
  },
  {
   "property": "C112",
   "status": "proved",
   "theorems": [
    "Props.C112_converts_iff",
    "Props.C112_same_instances"
   ],
   "note": "composition of C98, C19 and C11-C16; a root read from JSON has no metadata and no nested instances (C52); when encoding panics is C98_binary_panics_iff"
  },
  {
   "property": "C113",
   "status": "proved",
   "theorems": [
    "Props.C113_saves",
    "Props.C113_same_instances"
   ],
   "note": "composition of C98, C97, C52 and C100; values that do not come back are those of C51_exact"
  },
  {
   "property": "C114",
   "status": "proved",
   "theorems": [
    "Props.C114_converts"
   ],
   "note": "composition of C70, C97 and C100; every instance that a value refers to is in the tree (xml_mentions)"
  },
  {
   "property": "C115",
   "status": "proved",
   "theorems": [
    "Props.C115_converts_iff",
    "Props.C115_converts"
   ],
   "note": "composition of C68/C69, C97 and C100; files with cycles are those of C69_trees_fails; the model of the JSON package names instances by natural numbers, `placed` translates"
  }
 ]
}
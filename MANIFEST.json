{
 "claims": [
  {
   "property": "C01",
   "status": "proved",
   "theorems": [
    "Avdl.Props.C01_split_compose",
    "Avdl.Props.C01_full_name_identifies",
    "Avdl.Props.C01_compose_split",
    "Avdl.Props.C01_compose_split_exception"
   ],
   "note": ""
  },
  {
   "property": "C02",
   "status": "partial",
   "theorems": [
    "Avdl.Props.C02_reference_denotes_partial",
    "Avdl.Props.C02_written_form",
    "Avdl.Props.C02_fails_null_namespace",
    "Avdl.Props.C02_fails_primitive_name",
    "Avdl.Props.C02_alias_denotes"
   ],
   "note": "Exact characterisation (iff) of when a written reference denotes its type; the property is false for null-namespace types referenced inside a namespace and for null-namespace types named like a primitive (witnesses)."
  },
  {
   "property": "C03",
   "status": "partial",
   "theorems": [
    "Avdl.Props.C03_defined_at_most_once_partial",
    "Avdl.Props.C03_convert_partial",
    "Avdl.Props.coherent_of_namespaced",
    "Avdl.Props.coherent_of_idl",
    "Avdl.Props.C03_fails_null_namespace_import"
   ],
   "note": "Proved from source to document (C03_convert_partial) for compilations that do not mix namespaced and namespace-less types (coherent_of_idl: no condition otherwise without JSON imports); false when a namespace-less import meets a namespaced protocol (witness)."
  },
  {
   "property": "C04",
   "status": "partial",
   "theorems": [
    "Avdl.Props.C04_definitions_precede_references_partial",
    "Avdl.Props.C04_convert_partial",
    "Avdl.Props.coherent_of_namespaced",
    "Avdl.Props.coherent_of_idl",
    "Avdl.Props.C04_fails_null_namespace_import",
    "Avdl.Props.C04_fails_wrong_type_inlined"
   ],
   "note": "Proved from source to document (C04_convert_partial) for compilations that do not mix namespaced and namespace-less types; false otherwise (witnesses)."
  },
  {
   "property": "C05",
   "status": "proved",
   "theorems": [
    "Avdl.Props.C05_schema_serialization_terminates",
    "Avdl.Props.C05_protocol_serialization_terminates"
   ],
   "note": "For all schemas, type tables and protocols, without side conditions."
  },
  {
   "property": "C06",
   "status": "partial",
   "theorems": [
    "Avdl.Props.C06_defines_exactly_partial",
    "Avdl.Props.C06_convert_partial",
    "Avdl.Props.coherent_of_namespaced",
    "Avdl.Props.coherent_of_idl",
    "Avdl.Props.C06_fails_null_namespace_import"
   ],
   "note": "Proved from source to document (C06_convert_partial) for compilations that do not mix namespaced and namespace-less types; false otherwise (witness)."
  },
  {
   "property": "C07",
   "status": "partial",
   "theorems": [
    "Avdl.Props.C07_extracted_self_contained_partial",
    "Avdl.Props.C07_extraction_terminates",
    "Avdl.Props.C07_extract_partial",
    "Avdl.Props.coherent_of_namespaced",
    "Avdl.Props.coherent_of_idl",
    "Avdl.Props.C07_fails_null_namespace"
   ],
   "note": "Proved from source to extracted schemata (C07_extract_partial) for compilations that do not mix namespaced and namespace-less types; false otherwise (witness)."
  },
  {
   "property": "C08",
   "status": "proved",
   "theorems": [
    "Avdl.Props.C08_registry_is_first_accepted",
    "Avdl.Props.C08_names_unique",
    "Avdl.Props.C08_lookup",
    "Avdl.Props.C08_attempt",
    "Avdl.Props.C08_registry_ok",
    "Avdl.Props.C08_reference_panics"
   ],
   "note": "Refinement to the list of first accepted definitions, for every history."
  },
  {
   "property": "C09",
   "status": "proved",
   "theorems": [
    "Avdl.Props.C09_registered_names_legal",
    "Avdl.Props.C09_illegal_name_rejected",
    "Avdl.Props.C09_declared_names_not_builtin",
    "Avdl.Props.C09_complex_type_names_accepted"
   ],
   "note": "Names of complex types (array, map, ...) are accepted for declared types when quoted; the property speaks of primitive and logical type keywords."
  },
  {
   "property": "C11",
   "status": "proved",
   "theorems": [
    "Avdl.Props.C11_accepted_iff_conforms",
    "Avdl.Props.C11_enum_symbol_not_checked",
    "Avdl.Props.C11_fixed_length_not_checked"
   ],
   "note": "Against the Avro table of default values, strings standing for bytes/fixed/enum; the two extra theorems show what the check leaves out under a stricter reading."
  },
  {
   "property": "C12",
   "status": "proved",
   "theorems": [
    "Avdl.Props.C12_reason_iff_rejected",
    "Avdl.Props.C12_reason_iff_nonconforming",
    "Avdl.Props.C12_reason_explains"
   ],
   "note": ""
  },
  {
   "property": "C13",
   "status": "proved",
   "theorems": [
    "Avdl.Props.C13_check_terminates",
    "Avdl.Props.C13_rejected_is_nonconforming",
    "Avdl.Props.C13_accepted_conforms",
    "Avdl.Props.C13_mutable_set",
    "Avdl.Props.C13_registered_flat",
    "Avdl.Props.C13_recursive_positions_unchecked",
    "Avdl.Props.C13_forward_reference_unchecked"
   ],
   "note": "Termination for every reachable registry (C08_registry_ok); the last two theorems exhibit the positions that are never checked."
  },
  {
   "property": "C14",
   "status": "proved",
   "theorems": [
    "Avdl.Props.C14_optional_field_order",
    "Avdl.Props.C14_optional_parameter_order",
    "Avdl.Props.C14_default_matches_first_branch"
   ],
   "note": ""
  },
  {
   "property": "C15",
   "status": "proved",
   "theorems": [
    "Avdl.Props.C15_accepted_unions_legal",
    "Avdl.Props.C15_legal_unions_accepted",
    "Avdl.Props.C15_array_named_type_rejected"
   ],
   "note": "Also the converse, except for namespace-less types named like an unnamed type (witness)."
  },
  {
   "property": "C16",
   "status": "partial",
   "theorems": [
    "Avdl.Props.C16_annotations_collected",
    "Avdl.Props.C16_reserved_rejected",
    "Avdl.Props.C16_record_output",
    "Avdl.Props.C16_enum_output",
    "Avdl.Props.C16_fixed_output",
    "Avdl.Props.C16_unnamed_output",
    "Avdl.Props.C16_logical_output_partial",
    "Avdl.Props.C16_message_output",
    "Avdl.Props.C16_protocol_output",
    "Avdl.Props.C16_logical_type_overridden"
   ],
   "note": "Proved for all constructs except logical types, where the names logicalType, precision and scale are not reserved and replace structural entries (witness)."
  },
  {
   "property": "C17",
   "status": "partial",
   "theorems": [
    "Avdl.Props.C17_recognised_iff",
    "Avdl.Props.C17_unrecognised_unchanged",
    "Avdl.Props.C17_output_unchanged_partial",
    "Avdl.Props.C17_annotated_primitive_partial",
    "Avdl.Props.C17_bad_scale_lost",
    "Avdl.Props.C17_scale_above_precision_accepted"
   ],
   "note": "Recognition is characterised exactly. Output unchanged when precision and scale are plain integers, scale in range; otherwise a bad scale is lost (witness)."
  },
  {
   "property": "C18",
   "status": "partial",
   "theorems": [
    "Avdl.Props.C18_integer_literal_partial",
    "Avdl.Props.C18_min_value_rejected",
    "Avdl.Props.C18_u32_partial",
    "Avdl.Props.C18_u32_suffix_rejected"
   ],
   "note": "Exact for every integer token except -2^63 in hex/octal, which the code rejects (proved as a violation); sizes exact for tokens without a long suffix, tokens with one are always rejected (proved)."
  },
  {
   "property": "C19",
   "status": "proved",
   "theorems": [
    "Avdl.Props.C19_token_decodes",
    "Avdl.Props.C19_decode",
    "Avdl.Props.C19_plain",
    "Avdl.Props.C19_unicode_round_trip",
    "Avdl.Props.C19_minimal_round_trip",
    "Avdl.Props.C19_plus_sign_accepted"
   ],
   "note": "For every string token of the lexer's grammar; unpaired surrogates denote no character and are kept as written."
  },
  {
   "property": "C29",
   "status": "proved",
   "theorems": [
    "Avdl.Props.C29_no_duplicates"
   ],
   "note": ""
  },
  {
   "property": "C31",
   "status": "proved",
   "theorems": [
    "Avdl.Props.C31_cleanup",
    "Avdl.Props.C31_empty",
    "Avdl.Props.C31_line_count",
    "Avdl.Props.C31_usual_style",
    "Avdl.Props.C31_emphasis_lost",
    "Avdl.Props.C31_white_space"
   ],
   "note": "Every clean-up is one of three permitted line-wise deletions; line count kept; comments in the usual style give exactly their text. Lone carriage returns are ordinary characters in the model. C31_emphasis_lost is a finding: leading emphasis stars count as decoration."
  },
  {
   "property": "C28",
   "status": "proved",
   "theorems": [
    "Avdl.Props.C28_namespace_scoping",
    "Avdl.Props.C28_names_determined"
   ],
   "note": "Relation between parse tree and result (Verif/Spec/Source.lean) for every file that is read; the reader's single mutable namespace is modelled as it is."
  },
  {
   "property": "C30",
   "status": "partial",
   "theorems": [
    "Avdl.Props.C30_reported_exactly",
    "Avdl.Props.C30_one_comment_per_place",
    "Avdl.Props.C30_comment_determined",
    "Avdl.Props.C28_namespace_scoping",
    "Avdl.Props.C30_field_comment_lost",
    "Avdl.Props.C36_token_numbers"
   ],
   "note": "Reported iff it belongs to no declaration, each once; the documentation of every declaration is its closest preceding comment (part of C28_namespace_scoping). The property fails for the comment of a field declaration whose variables all have their own: neither attached nor reported (witness)."
  },
  {
   "property": "C10",
   "status": "proved",
   "theorems": [
    "Avdl.Props.C10_registry_reports_exactly",
    "Avdl.Props.C10_undefined_exactly",
    "Avdl.Props.C10_any_order",
    "Avdl.Props.C10_compile"
   ],
   "note": ""
  },
  {
   "property": "C20",
   "status": "proved",
   "theorems": [
    "Avdl.Props.C20_search_order",
    "Avdl.Props.C20_fails_iff_missing",
    "Avdl.Props.C20_directories_in_order"
   ],
   "note": "The file system (existence, canonical paths) is a parameter. C20_fails_iff_missing assumes that the path of an existing file can be made canonical."
  },
  {
   "property": "C21",
   "status": "proved",
   "theorems": [
    "Avdl.Props.C21_at_most_once",
    "Avdl.Props.C21_trace_at_most_once",
    "Avdl.Props.C21_trace_determined",
    "Avdl.Props.C21_compile_terminates"
   ],
   "note": "Termination for finitely many canonical paths, with the default value checks included."
  },
  {
   "property": "C22",
   "status": "proved",
   "theorems": [
    "Avdl.Props.C22_messages",
    "Avdl.Props.C22_lastEntry_spec"
   ],
   "note": ""
  },
  {
   "property": "C25",
   "status": "partial",
   "theorems": [
    "Avdl.Props.C25_delivered_partial",
    "Avdl.Props.C25_compile_delivers",
    "Avdl.Props.C25_raised_determined",
    "Avdl.Props.C25_results_independent",
    "Avdl.Props.C25_directory_delivers",
    "Avdl.Props.C25_fails_stale",
    "Avdl.Props.C25_fails_directory",
    "Avdl.Props.C25_fails_reader_error"
   ],
   "note": "Proved for texts and readable files and successful directories, for a builder with any history. The property fails in three situations, each with a witness: an unreadable file leaves the old warnings, a directory loses the warnings of the files before the failing one, and a file the reader rejects loses its own."
  },
  {
   "property": "C27",
   "status": "proved",
   "theorems": [
    "Avdl.Props.C27_same_inputs",
    "Avdl.Props.C27_same_files"
   ],
   "note": ""
  },
  {
   "property": "C35",
   "status": "proved",
   "theorems": [
    "Avdl.Props.C35_source_order",
    "Avdl.Props.C35_registry_order"
   ],
   "note": ""
  },
  {
   "property": "C23",
   "status": "partial",
   "theorems": [
    "Avdl.Props.C23_protocol_partial",
    "Avdl.Props.C23_schema_partial",
    "Avdl.Props.C23_fails_logical_base",
    "Avdl.Props.C23_fails_reference_annotations"
   ],
   "note": "Importing the document written for a protocol (or one schema) gives exactly its types and messages back, for tables meeting the output conditions of C04/C06 and annotation conditions. Annotations that name a logical type on a primitive change the type, and annotations on references are not written (witnesses)."
  },
  {
   "property": "C24",
   "status": "partial",
   "theorems": [
    "Avdl.Props.C24_collects",
    "Avdl.Props.C24_recovers",
    "Avdl.Props.C24_registry_partial",
    "Avdl.Props.C24_registry_general",
    "Avdl.Props.C24_fails_illegal",
    "Avdl.Props.C24_fails_duplicate"
   ],
   "note": "Flattening collects every nested definition, inner ones first, and expanding the references gives the schema back. The registry receives them all when names are legal and new; otherwise types are dropped silently (witnesses)."
  },
  {
   "property": "C26",
   "status": "partial",
   "theorems": [
    "Avdl.Props.C26_schema",
    "Avdl.Props.C26_extracted",
    "Avdl.Props.C26_protocol_partial",
    "Avdl.Props.C26_convert_partial",
    "Avdl.Props.C26_fails_inline_definitions"
   ],
   "note": "Independent of every hash order for schemas and extracted schemata, and for protocols whose messages contain no inline definitions; messages of imported .avpr files may contain them, and then the output depends on the order (witness)."
  },
  {
   "property": "C32",
   "status": "partial",
   "theorems": [
    "Avdl.Props.C32_distance_partial",
    "Avdl.Props.C32_distance_total",
    "Avdl.Props.C32_fails_non_ascii",
    "Avdl.Props.C32_nearest_partial",
    "Avdl.Props.C32_exists",
    "Avdl.Props.C32_keyword",
    "Avdl.Props.C32_keyword_list"
   ],
   "note": "The distance is exact when the second text is ASCII (all keywords and primitives), and wrong otherwise (witness). Suggestions exist for all names; within the tolerance and nearest for ASCII names; keyword suggestions exact for all identifiers."
  },
  {
   "property": "C33",
   "status": "partial",
   "theorems": [
    "Avdl.Props.C33_one_file_each_partial",
    "Avdl.Props.C33_last_wins",
    "Avdl.Props.C33_fails_same_simple_name"
   ],
   "note": "One file for each type when simple names differ; types with equal simple names in different namespaces overwrite each other (witness)."
  },
  {
   "property": "C34",
   "status": "partial",
   "theorems": [
    "Avdl.Props.C34_base_kept_partial",
    "Avdl.Props.C34_fails_base_replaced"
   ],
   "note": "An annotated primitive without a recognised logical type keeps its base; with one, the base is replaced by the logical type's usual base (witness)."
  },
  {
   "property": "C37",
   "status": "proved",
   "theorems": [
    "Avdl.Props.C37_idl",
    "Avdl.Props.C37_idl_succeeds",
    "Avdl.Props.C37_idl2schemata",
    "Avdl.Props.C37_idl2schemata_succeeds",
    "Avdl.Props.C37_idl2schemata_in_the_way"
   ],
   "note": "The file system and library results are parameters."
  },
  {
   "property": "C36",
   "status": "partial",
   "theorems": [
    "Avdl.Props.C36_token",
    "Avdl.Props.C36_context",
    "Avdl.Props.C36_tokens_renderable",
    "Avdl.Props.C36_line_column_in_range",
    "Avdl.Props.C36_line_column_exact_partial",
    "Avdl.Props.C36_out_of_range",
    "Avdl.Props.C36_past_line_end",
    "Avdl.Props.C36_fails_multibyte",
    "Avdl.Props.C36_token_positions",
    "Avdl.Props.C36_token_numbers",
    "Avdl.Props.C36_positions_in_source",
    "Avdl.Props.C36_node_positions"
   ],
   "note": "All spans are in range; token and construct spans are exact: every position in the parse tree of a text is where its token stands in the text, and the span of a construct reaches from its first to its last character. Offsets from line and column are exact behind ASCII characters and wrong behind others (witness). miette's acceptance condition is an assumption."
  },
  {
   "property": "C38",
   "status": "proved",
   "theorems": [
    "Avdl.Props.C38_fixed_message",
    "Avdl.Props.parser_accepts_exactly_grammar",
    "Avdl.Props.grammar_unambiguous",
    "Avdl.Props.rejected_iff_no_reading",
    "Avdl.Props.accepted_has_reading",
    "Avdl.Props.single_word_is_type",
    "Avdl.Props.type_is_result"
   ],
   "note": "The grammar is written as inductive relations, read off the generated parser's rules; alternatives that overlap are ordered there as ANTLR orders them. That the ANTLR runtime implements the grammar is trusted."
  },
  {
   "property": "C39",
   "status": "proved",
   "theorems": [
    "Avdl.Props.C39_tokens_of_text",
    "Avdl.Props.C39_kind_unique",
    "Avdl.Props.C39_ascii_names",
    "Avdl.Props.lexer_finds_tokens",
    "Avdl.Props.lexer_is_lossless",
    "Avdl.Props.unrecognised_reported",
    "Avdl.Props.laid_out_tokens"
   ],
   "note": "The texts of each kind of token are specified in Spec/Tokens.lean without the rules of the lexer. The rules are read off the generated lexer's transition network; that the ANTLR runtime takes the longest match and the first rule is trusted."
  },
  {
   "property": "C40",
   "status": "partial",
   "theorems": [
    "Avdl.Props.C40_substitute_ends_file",
    "Avdl.Props.C40_same_document",
    "Avdl.Props.C40_same_document_str",
    "Avdl.Props.C40_same_schemata",
    "Avdl.Props.C40_same_schemata_str",
    "Avdl.Props.C40_blank_same_tokens",
    "Avdl.Props.C40_layouts_same_tokens",
    "Avdl.Props.tokens_of_parts",
    "Avdl.Props.blank_between",
    "Avdl.Props.blank_not_significant",
    "Avdl.Props.blank_delimiter",
    "Avdl.Props.stream_is_significant",
    "Avdl.Props.C40_empty_comment_swallows",
    "Avdl.Props.C40_empty_comment_alone",
    "Avdl.Props.C40_line_comment_at_end"
   ],
   "note": "Texts with the same tokens and doc comments, in a whole set of files, give the same documents, schemas and warnings or fail for the same reason (positions and the order of undefined names may differ); blanks between tokens can be exchanged. Exceptions: the empty comment /**/ is lexed as the start of a doc comment and swallows code up to the next comment end (witness), and a line comment on an unterminated last line is reported as an error (witness)."
  },
  {
   "property": "C41",
   "status": "partial",
   "theorems": [
    "Avdl.Props.C28_namespace_scoping",
    "Avdl.Props.C41_literals_are_tokens",
    "Avdl.Props.C41_literals_denote",
    "Avdl.Props.C41_json_read",
    "Avdl.Props.C41_json_accepted_partial",
    "Avdl.Props.C41_json_determined"
   ],
   "note": "C28_namespace_scoping relates the whole parse tree to the result (types exactly, Verif/Spec/Source.lean). JSON values: what is read is what is denoted, always; what denotes a value is accepted except -2^63 in hex or octal (C18_min_value_rejected). Floating point literals denote what the float parser makes of them. Annotations on enum symbols are ignored by the code and not in the tree."
  },
  {
   "property": "C42",
   "status": "partial",
   "theorems": [
    "Avdl.Props.C42_fails_type_object",
    "Avdl.Props.C42_fails_nested_object",
    "Avdl.Props.C42_fails_nested_union",
    "Avdl.Props.C42_schema_partial",
    "Avdl.Props.C42_protocol_partial",
    "Avdl.Props.C42_meaning_determined",
    "Avdl.Props.C42_fails_dotted_name",
    "Avdl.Props.C42_fails_zero_precision",
    "Avdl.Props.C42_fails_large_scale",
    "Avdl.Props.C42_fails_property_lost",
    "Avdl.Props.C34_fails_base_replaced"
   ],
   "note": "The meaning of JSON schemas is an inductive relation (Verif/Spec/AvroJson.lean). Proved for all documents in which no object has a dotted name together with a namespace attribute, and named logical types are valid; the property fails in five situations, each with a witness. For the text of the document see C44."
  },
  {
   "property": "C43",
   "status": "partial",
   "theorems": [
    "Avdl.Props.C43_written_text",
    "Avdl.Props.C43_distinct",
    "Avdl.Props.C43_read_back_partial",
    "Avdl.Props.C43_fails_deep"
   ],
   "note": "The JSON printer and reader are modelled from the documented behaviour of serde_json and json_comments, whose sources are not in the repository. Documents nested deeper than 127 are written but not read back (witness). Floating point numbers are a parameter; documents with numbers that do not survive writing and reading are excluded (Storable)."
  },
  {
   "property": "C44",
   "status": "proved",
   "theorems": [
    "Avdl.Props.C44_reads_grammar",
    "Avdl.Props.C44_reads_plain",
    "Avdl.Props.C44_unambiguous"
   ],
   "note": "The grammar is written as inductive relations (Verif/Spec/JsonText.lean). The reader is modelled from the documented behaviour of serde_json and json_comments; floating point numbers are a parameter."
  },
  {
   "property": "C45",
   "status": "partial",
   "theorems": [
    "Avdl.Props.C45_protocol_partial",
    "Avdl.Props.C45_schema_partial",
    "Avdl.Props.C45_extract_partial",
    "Avdl.Props.C45_command_partial",
    "Avdl.Props.C45_fails_logical_type",
    "Avdl.Props.C23_fails_logical_base",
    "Avdl.Props.C43_fails_deep"
   ],
   "note": "From the compilation of the original to the compilation of the importing file, text included. Conditions: namespaces are not mixed (as in C03/C04), no annotated primitive names a logical type (witness that the type changes otherwise), no alias of the form .X, decimals have a precision, at most 127 levels of nesting (witness), floating point numbers survive writing and reading. All other conditions of C23/C43 are proved for everything the compiler produces (Verif/Lemmas/Kept.lean)."
  },
  {
   "property": "C46",
   "status": "partial",
   "theorems": [
    "Avdl.Props.C46_convert_partial",
    "Avdl.Props.C46_extract_partial"
   ],
   "note": "For inputs in which namespaces are not mixed, as in C03/C04."
  },
  {
   "property": "C47",
   "status": "proved",
   "theorems": [
    "Avdl.Props.C47_undefined_where_written",
    "Avdl.Props.C47_clash_where_declared",
    "Avdl.Props.C47_in_order",
    "Avdl.Props.C47_fails_hash_order",
    "Avdl.Props.C47_unplaced_sort_first",
    "Avdl.Props.C47_which_place",
    "Avdl.Props.C47_diagnostic",
    "Avdl.Props.C47_fails_first_place",
    "Avdl.Props.C47_fails_named_file"
   ],
   "note": "For all worlds whose parser is the modelled one. The place is one where the name is written, not always the first (witness: a message before a record) and, among messages, dependent on hash order (witness), and the label for names from JSON files always gives the first JSON import (witness)."
  },
  {
   "property": "C48",
   "status": "proved",
   "theorems": [
    "Avdl.Props.C48_idl",
    "Avdl.Props.C48_idl2schemata",
    "Avdl.Props.C48_idl2schemata_no_input",
    "Avdl.Props.C48_help",
    "Avdl.Props.C48_wrong_arguments",
    "Avdl.Props.C48_unambiguous",
    "Avdl.Props.C48_status_two",
    "Avdl.Props.C48_status_zero",
    "Avdl.Props.C48_idl_failure",
    "Avdl.Props.C48_idl_success",
    "Avdl.Props.C48_options_anywhere",
    "Avdl.Props.C48_surplus_ignored",
    "Avdl.Props.C48_fails_surplus",
    "Avdl.Props.C48_fails_usage_status"
   ],
   "note": "The conventions are the relations of Spec/Args.lean. lexopt is modelled from its documented behaviour; arguments that are not UTF-8 are outside the model. Findings: positional arguments after the second are ignored without a message, and a usage error has status 2 before the subcommand and 1 after it."
  },
  {
   "property": "C49",
   "status": "proved",
   "theorems": [
    "Avdl.Props.C49_reported",
    "Avdl.Props.C49_tokens"
   ],
   "note": "For all lists of errors; what is assumed of ANTLR is that errors of the parser are at tokens of the text, at its end, or have no position (C49_tokens: the tokens the parser gets are like this) and that errors of the lexer have no token."
  },
  {
   "property": "C50",
   "status": "partial",
   "theorems": [
    "Avdl.Props.C50_expected_tokens_partial",
    "Avdl.Props.C50_end_of_file_partial",
    "Avdl.Props.C50_empty_union",
    "Avdl.Props.C50_empty_type_parameter",
    "Avdl.Props.C50_missing_name",
    "Avdl.Props.C50_trailing_comma",
    "Avdl.Props.C50_fixed_size",
    "Avdl.Props.C50_missing_brace",
    "Avdl.Props.C50_fails_close_brace",
    "Avdl.Props.C50_fails_help",
    "Avdl.Props.C50_fails_help_comma",
    "Avdl.Props.C50_fails_small_set",
    "Avdl.Props.C50_fails_comment",
    "Avdl.Props.C50_fails_like_message",
    "Avdl.Props.C50_fails_trailing_comma",
    "Avdl.Props.C50_fails_name_end",
    "Avdl.Props.C50_annotation",
    "Avdl.Props.C50_parenthesis",
    "Avdl.Props.C50_quotes",
    "Avdl.Props.C50_import_kind",
    "Avdl.Props.C50_misspelt",
    "Avdl.Props.C50_fails_annotation_name"
   ],
   "note": "The named mistakes are recognised whatever surrounds them. False in these situations, with witnesses: sets of expected tokens are cut at a quoted closing brace, so the report meant for a missing brace is never used and the help is incomplete; small sets keep the name <EOF>; braces in comments count; a trailing comma anywhere after an enum is said to be in the enum; names ending in map or union are taken for the keyword; the end of the name of an annotation is taken for a following keyword."
  },
  {
   "property": "C51",
   "status": "partial",
   "theorems": [
    "Avdl.Props.C51_directory_partial",
    "Avdl.Props.C51_single_file",
    "Avdl.Props.C51_fails_directory_entry"
   ],
   "note": "Proved for the entries of the directory walk named .avdl. Missing: that these are files; a directory named like an IDL file makes the extraction fail (C51_fails_directory_entry)."
  },
  {
   "property": "C52",
   "status": "partial",
   "theorems": [
    "Avdl.Props.C52_decimal",
    "Avdl.Props.C52_words",
    "Avdl.Props.C52_hex_accepted",
    "Avdl.Props.C52_hex_partial",
    "Avdl.Props.C52_tokens",
    "Avdl.Props.C52_determined",
    "Avdl.Props.C52_fails_zero",
    "Avdl.Props.C52_fails_fraction",
    "Avdl.Props.C52_fails_long_fraction",
    "Avdl.Props.C52_fails_long_number",
    "Avdl.Props.C52_fails_exponent",
    "Avdl.Props.C52_fails_subnormal"
   ],
   "note": "Proved for all decimal literals and for hexadecimal ones with a significand below 2^53 (or an integer below 2^64) and an exponent of at least -1022; C52_hex_accepted says which hexadecimal literals are accepted. For the others the claim is false, with witnesses: zero or a fraction with an exponent from 1024 on, fractions rounded twice, integers from 2^64 on and exponents outside i32 rejected, subnormal powers. Assumed: f64 parsing and arithmetic of the standard library round correctly and powi(2, n) is exact where it is a normal number."
  },
  {
   "property": "C53",
   "status": "proved",
   "theorems": [
    "Avdl.Props.C53_accepted_iff",
    "Avdl.Props.C53_text_accepted_iff"
   ],
   "note": "Reading one file; what later steps reject (imports, undefined names, defaults once references are known) is C15-C18, C22 and C40."
  },
  {
   "property": "C54",
   "status": "proved",
   "theorems": [
    "Avdl.Props.C54_warnings_exact",
    "Avdl.Props.C54_text_warnings",
    "Avdl.Props.C54_where"
   ],
   "note": "One warning per unrecognised piece of text, per doc comment that belongs to nothing (C30), per odd alias and per union with annotations, in order. For the positions of the first two kinds see C58."
  },
  {
   "property": "C55",
   "status": "proved",
   "theorems": [
    "Avdl.Props.C55_compiles_iff",
    "Avdl.Props.C55_compiles_eventually",
    "Avdl.Props.C55_json_importable"
   ],
   "note": "Which single files can be read is C53. Conformance of defaults treats recursive positions as unknown (C13)."
  },
  {
   "property": "C56",
   "status": "partial",
   "theorems": [
    "Avdl.Props.C56_first_problem",
    "Avdl.Props.C56_import_where_written",
    "Avdl.Props.C56_default_where_written",
    "Avdl.Props.C56_all_bad_defaults",
    "Avdl.Props.C56_fails_unreadable_idl"
   ],
   "note": "Proved except where it is false: an imported IDL file that cannot be read is reported without the import statement (C56_fails_unreadable_idl). Which mistake of a file is reported is C57, and reasons are truthful by C12; the defect of a JSON document is C59; errors inside one file point rightly by C57; the positions of syntax errors are not modelled."
  },
  {
   "property": "C57",
   "status": "proved",
   "theorems": [
    "Avdl.Props.C57_first_mistake",
    "Avdl.Props.C57_mistake_reported",
    "Avdl.Props.C57_unique",
    "Avdl.Props.C57_text",
    "Avdl.Props.C57_where",
    "Avdl.Props.C57_where_compiled"
   ],
   "note": "Both directions; the explanation of a bad default is truthful (C12) but only determined up to wording."
  },
  {
   "property": "C58",
   "status": "partial",
   "theorems": [
    "Avdl.Props.C58_shown",
    "Avdl.Props.C58_message_partial",
    "Avdl.Props.C58_label_partial",
    "Avdl.Props.C58_where",
    "Avdl.Props.C58_where_compiled",
    "Avdl.Props.C58_marked",
    "Avdl.Props.C58_marked_compiled",
    "Avdl.Props.C58_fails_message",
    "Avdl.Props.C58_fails_label",
    "Avdl.Props.C58_fails_where"
   ],
   "note": "Labels are chosen by searching the message, so quoted text can mislead them; words of ANTLR are replaced in quoted text too; and the position of unrecognised text is wrong behind characters of several bytes in its line. Witnesses for all three; otherwise proved for every warning of every compilation."
  },
  {
   "property": "C59",
   "status": "partial",
   "theorems": [
    "Avdl.Props.C59_schema",
    "Avdl.Props.C59_protocol",
    "Avdl.Props.C59_schema_first",
    "Avdl.Props.C59_protocol_first",
    "Avdl.Props.C59_compiled",
    "Avdl.Props.C59_fails_place"
   ],
   "note": "Proved, except that the place is incomplete where the code leaves it out: the member of a union and the namespace of a record (C59_fails_place). The wording of the report is not modelled."
  },
  {
   "property": "C60",
   "status": "partial",
   "theorems": [
    "Avdl.Props.C60_protocol_valid",
    "Avdl.Props.C60_schema_valid",
    "Avdl.Props.C60_extract_valid",
    "Avdl.Props.C60_protocol_partial",
    "Avdl.Props.C60_schema_partial",
    "Avdl.Props.C60_extract_partial",
    "Avdl.Props.C60_unique",
    "Avdl.Props.C60_fails_decimal"
   ],
   "note": "Validity is proved for everything that is compiled and written. That the document means the declared types and messages is proved under these conditions: namespaces are not mixed (as in C03/C04), no annotated primitive names a logical type, a decimal has a precision and no scale above it (witness that the document means something else otherwise), no alias of the form .X."
  },
  {
   "property": "C61",
   "status": "partial",
   "theorems": [
    "Avdl.Props.C61_protocol",
    "Avdl.Props.C61_schema",
    "Avdl.Props.C61_extract",
    "Avdl.Props.C61_check_depth",
    "Avdl.Props.C61_fails_check"
   ],
   "note": "Proved for the documents and for the nesting of calls. False for the check of default values: it builds an exponentially large copy of the type of a field (C61_fails_check, for every n). Size is counted in nodes of schemas and JSON values, not in bytes or seconds."
  },
  {
   "property": "C62",
   "status": "proved",
   "theorems": [
    "Avdl.Props.C62_compile",
    "Avdl.Props.C62_text",
    "Avdl.Props.C62_convert",
    "Avdl.Props.C62_alone"
   ],
   "note": "For single files and texts; a directory is a list of files (C51). The file system is taken not to change during the compilation."
  },
  {
   "property": "C63",
   "status": "partial",
   "theorems": [
    "Avdl.Props.C63_output_partial",
    "Avdl.Props.C63_legal_partial",
    "Avdl.Props.C63_type_names",
    "Avdl.Props.C63_fails_names",
    "Avdl.Props.C63_fails_imported"
   ],
   "note": "Proved for compilations without JSON imports and up to the spelling of names of fields, symbols and parameters. Both conditions are needed: the code checks neither these names nor imported types (C63_fails_names, C63_fails_imported)."
  },
  {
   "property": "C64",
   "status": "proved",
   "theorems": [
    "Avdl.Props.C64_contexts",
    "Avdl.Props.C64_same_error",
    "Avdl.Props.C64_unreadable",
    "Avdl.Props.C64_no_directory",
    "Avdl.Props.C64_text_tells",
    "Avdl.Props.C64_text_names"
   ],
   "note": ""
  },
  {
   "property": "C65",
   "status": "partial",
   "theorems": [
    "Avdl.Props.C65_extract",
    "Avdl.Props.C65_schema",
    "Avdl.Props.C65_protocol_partial",
    "Avdl.Props.C65_appended_partial",
    "Avdl.Props.C65_fails_other_namespace"
   ],
   "note": "Proved without conditions for extraction and documents of a single schema. For protocols, when namespaces are not mixed; otherwise it is false (C65_fails_other_namespace): an import at the end changes what is written for an earlier type."
  },
  {
   "property": "C66",
   "status": "partial",
   "theorems": [
    "Avdl.Props.C66_compiles",
    "Avdl.Props.C66_results_partial",
    "Avdl.Props.C66_fails_nested_message"
   ],
   "note": "Success, types and extracted schemas: proved for all splits that keep the names of messages apart from those of other imports; without that it is false (C66_fails_nested_message): a message of a file imported by the new file replaces that file's own. Documents: moreover if messages define no types in-line, as the order of messages matters then (C26)."
  },
  {
   "property": "C67",
   "status": "partial",
   "theorems": [
    "Avdl.Props.C67_any_order_partial",
    "Avdl.Props.C67_results",
    "Avdl.Props.C67_fails_unchecked_default",
    "Avdl.Props.C67_fails_json_first"
   ],
   "note": "Results: proved in full. Success: proved for files all of whose default values conform and whose declared types do not share names with imported JSON types. Without the first condition it is false (C67_fails_unchecked_default: defaults of types declared later are not checked), and without the second (C67_fails_json_first)."
  },
  {
   "property": "C68",
   "status": "proved",
   "theorems": [
    "Avdl.Props.C68_same_document",
    "Avdl.Props.C68_same_document_str",
    "Avdl.Props.C68_same_schemata",
    "Avdl.Props.C68_same_schemata_str",
    "Avdl.Props.C68_layouts_same_code",
    "Avdl.Props.C68_covers_layout"
   ],
   "note": "Proved for all texts and sets of files with the same tokens. Imported JSON files are compared by what they are read as."
  },
  {
   "property": "C69",
   "status": "partial",
   "theorems": [
    "Avdl.Props.C69_extract_partial",
    "Avdl.Props.C69_schema_partial",
    "Avdl.Props.C69_protocol_partial",
    "Avdl.Props.C69_fails_protocol_document"
   ],
   "note": "Conditions as for C45, whose necessity is witnessed there. The document of a protocol itself is not reproduced (order of mutually recursive types): C69_fails_protocol_document."
  },
  {
   "property": "C70",
   "status": "proved",
   "theorems": [
    "Avdl.Props.C70_name_kept",
    "Avdl.Props.C70_name_unquoted",
    "Avdl.Props.C70_same_document",
    "Avdl.Props.C70_same_document_str",
    "Avdl.Props.C70_same_schemata",
    "Avdl.Props.C70_same_schemata_str",
    "Avdl.Props.C70_keyword_differs"
   ],
   "note": ""
  },
  {
   "property": "C71",
   "status": "proved",
   "theorems": [
    "Avdl.Props.C71_same_document",
    "Avdl.Props.C71_same_document_str",
    "Avdl.Props.C71_same_schemata",
    "Avdl.Props.C71_same_schemata_str",
    "Avdl.Props.C71_covers_documentation"
   ],
   "note": ""
  },
  {
   "property": "C72",
   "status": "proved",
   "theorems": [
    "Avdl.Props.C72_more_directories",
    "Avdl.Props.C72_more_directories_str",
    "Avdl.Props.C72_more_directories_schemata",
    "Avdl.Props.C72_more_directories_schemata_str",
    "Avdl.Props.C72_empty_directories"
   ],
   "note": ""
  },
  {
   "property": "C73",
   "status": "proved",
   "theorems": [
    "Avdl.Props.C73_same_document",
    "Avdl.Props.C73_same_document_str",
    "Avdl.Props.C73_same_schemata",
    "Avdl.Props.C73_same_schemata_str"
   ],
   "note": ""
  },
  {
   "property": "C74",
   "status": "partial",
   "theorems": [
    "Avdl.Props.C74_convert_partial",
    "Avdl.Props.C74_extract_partial",
    "Avdl.Props.C74_fails_self_import"
   ],
   "note": "Holds unless the compiled file is imported, by itself or by a file it imports: then the text is rejected where the file is accepted (C74_fails_self_import)."
  },
  {
   "property": "C75",
   "status": "proved",
   "theorems": [
    "Avdl.Props.C75_array",
    "Avdl.Props.C75_object",
    "Avdl.Props.C75_one_line"
   ],
   "note": ""
  }
 ]
}

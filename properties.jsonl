{"id": "C01", "title": "Qualified names compose and split without loss", "statement": "For every simple name without a dot and every namespace, splitting the composed full name gives back the simple name and the (non-empty) namespace; two types whose names are dot-free have the same full name only if both their names and their effective namespaces agree, so the full name identifies a type.", "quantifier": "all strings used as simple names and namespaces (including none and empty)", "why_tests_cant": "Names are unbounded strings; collisions would only show for particular unlucky pairs.", "anchors": ["src/model/schema.rs: make_full_name, split_full_name", "src/reader.rs: extract_name, compute_namespace"]}
{"id": "C02", "title": "Shortened references in the output denote the referenced type", "statement": "Whenever the compiler writes a reference to a named type into its JSON output, an Avro reader applying the specification's name resolution in the surrounding namespace obtains exactly the full name of the type the IDL referred to.", "quantifier": "all type names, type namespaces and enclosing namespaces", "why_tests_cant": "The shortening rule interacts with empty, absent, equal and different namespaces and with names equal to built-in keywords; the full product cannot be enumerated.", "anchors": ["src/model/json.rs: schema_ref_name, named_type_preamble, is_schema_type_name"]}
{"id": "C03", "title": "Every named type is defined at most once per output document", "statement": "In the JSON produced for a protocol or schema, the definition (object form) of any given full name occurs at most once; every later occurrence is by name.", "quantifier": "all type tables, including mutually recursive ones, all type lists and all messages", "why_tests_cant": "Duplicate definitions only appear for particular sharing or recursion patterns, of which there are infinitely many.", "anchors": ["src/model/json.rs: schema_to_json, protocol_to_json, named_type_preamble"]}
{"id": "C04", "title": "Definitions precede references", "statement": "Reading the produced JSON in Avro's processing order (types in order, then messages), each name reference is to a type whose definition has already started: a one-pass Avro parser never meets an undefined name in output the compiler accepted.", "quantifier": "all accepted inputs: every registry in which all references resolve, in every declaration order", "why_tests_cant": "Forward references may be arranged in any order and depth; tests fix one arrangement.", "anchors": ["src/model/json.rs: schema_to_json (Reference arm), protocol_to_json", "src/compiler.rs: validate_all_references"]}
{"id": "C05", "title": "Serialization terminates on recursive types", "statement": "Producing JSON terminates for every set of types, no matter how they refer to each other (self-recursion, mutual recursion, long chains), and the result does not depend on how much stack/fuel it was granted.", "quantifier": "all finite type tables and all schemas referring into them", "why_tests_cant": "Termination over all cyclic graphs is not a finite observation.", "anchors": ["src/model/json.rs: schema_to_json, build_lookup"]}
{"id": "C06", "title": "A protocol's JSON defines exactly the declared and imported types", "statement": "The set of full names defined in the protocol JSON is exactly the set of registered types: nothing is lost by in-lining and nothing extra appears.", "quantifier": "all protocols whose references resolve", "why_tests_cant": "In-lining removes entries from the top-level list; whether some entry vanishes depends on the whole reference graph.", "anchors": ["src/model/json.rs: protocol_to_json", "src/compiler.rs: parse_and_resolve"]}
{"id": "C07", "title": "Extracted schemas are self-contained", "statement": "Schema extraction yields one schema per registered type, in registration order, and each one is self-contained: every name it references is defined inside it, before the reference.", "quantifier": "all accepted inputs", "why_tests_cant": "Self-containedness is a closure property of the whole reference graph.", "anchors": ["src/compiler.rs: Idl2Schemata::extract_impl", "src/model/json.rs: schema_to_json"]}
{"id": "C08", "title": "Type registration behaves as an insertion-ordered map with unique names", "statement": "After any sequence of registration attempts, the registry lists exactly the first accepted definition of each name in order of acceptance; a rejected attempt changes nothing; lookup returns the definition that was accepted under that full name.", "quantifier": "all sequences of registration attempts with arbitrary schemas", "why_tests_cant": "It is a statement about every history of operations.", "anchors": ["src/resolve.rs: SchemaRegistry::register, lookup, schemas, names"]}
{"id": "C09", "title": "Only legal Avro names become types", "statement": "Every registered type has a simple name and namespace segments of the form letter-or-underscore followed by letters, digits or underscores; a declaration is rejected otherwise, and no type declared in IDL carries the name of a primitive type or of an IDL logical type keyword.", "quantifier": "all identifiers accepted by the grammar and all JSON-imported names", "why_tests_cant": "Identifiers are unbounded Unicode strings.", "anchors": ["src/resolve.rs: is_valid_avro_name, validate_schema_name, register", "src/reader.rs: is_invalid_type_name"]}
{"id": "C10", "title": "Undefined types are always detected, and only those", "statement": "Compilation reports an undefined-name error if and only if some type, message or main schema contains a reference to a name that no declaration or import defines; the error names exactly the undefined names, each once.", "quantifier": "all parsed files and registries", "why_tests_cant": "References can be nested arbitrarily deep in records, unions, arrays, maps and messages.", "anchors": ["src/resolve.rs: validate_references, validate_schema, collect_unresolved_refs", "src/compiler.rs: validate_all_references"]}
{"id": "C11", "title": "Default values are accepted exactly when they conform to the field type", "statement": "A field default is accepted if and only if it conforms to the field's type under Avro's rules (numeric ranges, string-encoded bytes/fixed/enum, arrays, maps, records with required fields, any union branch).", "quantifier": "all JSON values and all reference-free schemas", "why_tests_cant": "Both values and schemas are unbounded recursive structures.", "anchors": ["src/model/schema.rs: is_valid_default, validate_default"]}
{"id": "C12", "title": "An invalid default always gets a reason and a valid one never does", "statement": "The diagnostic text for a default is produced exactly for non-conforming defaults; for a record default with missing required fields the reason names all of them.", "quantifier": "all JSON values and schemas", "why_tests_cant": "The reason generator re-traverses the value and could disagree with the validity check on deep inputs.", "anchors": ["src/model/schema.rs: validate_default"]}
{"id": "C13", "title": "Defaults of fields with named types are checked after registration, and the check terminates", "statement": "When a record is declared, each default of a field whose type mentions named types is checked against the types registered so far; the check terminates for recursive types; a default it rejects really is non-conforming, and one it accepts conforms once recursive positions are treated as unknown.", "quantifier": "all registries (including cyclic) and all record declarations", "why_tests_cant": "The unfolding of cyclic types is unbounded.", "anchors": ["src/model/schema.rs: validate_record_field_defaults, resolve_for_validation", "src/compiler.rs: process_decl_items"]}
{"id": "C14", "title": "The optional-type shorthand orders its union by the default", "statement": "For a field declared with the `T?` shorthand the union is [null, T] unless the default is a non-null value, in which case it is [T, null]; hence an accepted default always conforms to the first branch, as Avro requires.", "quantifier": "all types T, all defaults", "why_tests_cant": "Ranges over all types and JSON values.", "anchors": ["src/reader.rs: fix_optional_schema, walk_variable, walk_nullable_type"]}
{"id": "C15", "title": "Accepted unions are legal Avro unions", "statement": "Every union accepted from IDL source contains no directly nested union and no two branches of the same unnamed type or the same full name, wherever it is nested.", "quantifier": "all type expressions", "why_tests_cant": "Type expressions are unbounded; the duplicate check works on derived keys after annotations and logical types are applied.", "anchors": ["src/reader.rs: walk_union_type, walk_nullable_type, apply_properties", "src/model/schema.rs: union_type_key"]}
{"id": "C16", "title": "Annotations never overwrite structural JSON keys", "statement": "Custom annotations on protocols, types, fields and messages appear in the output under their own names and never replace a structural key (type, name, fields, items, symbols, size, request, ...); reserved annotation names are rejected.", "quantifier": "all annotation lists in all contexts", "why_tests_cant": "Annotation names are arbitrary strings and contexts differ in their reserved sets.", "anchors": ["src/reader.rs: walk_schema_properties, *_RESERVED", "src/model/json.rs: schema_to_json, field_to_json, message_to_json, protocol_to_json"]}
{"id": "C17", "title": "Logical-type annotations are interpreted only on compatible base types and without changing meaning", "statement": "An annotation naming a known logical type is recognised only when the annotated primitive is that logical type's base type; recognising it never changes the underlying type nor loses annotations: the JSON output equals that of the unrecognised annotated primitive (up to an explicit zero scale for decimals).", "quantifier": "all primitives, annotation maps, precisions and scales", "why_tests_cant": "Annotation maps are unbounded; the interaction of consumed and extra keys must hold for all of them.", "anchors": ["src/reader.rs: try_promote_logical_type, apply_properties_to_schema, json_value_as_u32", "src/model/schema.rs: parse_logical_type, expected_base_type"]}
{"id": "C18", "title": "Integer literals denote their mathematical value or are rejected", "statement": "An integer literal (decimal, hex, octal, with underscores, sign and long suffix) used as a JSON value denotes exactly its mathematical value when that fits a signed 64-bit integer and is rejected otherwise; sizes and precisions accept exactly the values below 2^32.", "quantifier": "all literal texts produced by the lexer's integer rule", "why_tests_cant": "Unbounded digit strings and boundary cases in several radices.", "anchors": ["src/reader.rs: parse_integer_literal, parse_integer_as_u32"]}
{"id": "C19", "title": "String literals decode escapes faithfully", "statement": "Decoding a string literal is total and inverts Java-style escaping: for every string, decoding its escaped form (with named, octal, or unicode escapes including surrogate pairs and repeated u) returns the string; text without backslashes is unchanged.", "quantifier": "all strings", "why_tests_cant": "Escapes interact with their neighbours (octal digit lookahead, surrogate pairing) in unboundedly many ways.", "anchors": ["src/reader.rs: unescape_java, try_parse_low_surrogate, get_string_from_literal"]}
{"id": "C20", "title": "Import search order", "statement": "An import is resolved to the file relative to the importing file if it exists there, otherwise to the first search directory (in the order given) that contains it; it fails exactly when none does.", "quantifier": "all file systems, directories, search paths", "why_tests_cant": "All file-system contents and path lists.", "anchors": ["src/import.rs: ImportContext::resolve_import", "src/compiler.rs: resolve_single_import"]}
{"id": "C21", "title": "Each file is imported at most once and import cycles terminate", "statement": "During one compilation every file is processed at most once no matter how often or how cyclically it is imported, and import processing terminates for every finite set of files.", "quantifier": "all import graphs, including cyclic ones and self-imports", "why_tests_cant": "Cyclic import graphs are unboundedly many; termination is not finitely observable.", "anchors": ["src/import.rs: mark_imported", "src/compiler.rs: process_decl_items, resolve_single_import, parse_and_resolve"]}
{"id": "C22", "title": "The protocol's own messages override imported ones", "statement": "If the compiled protocol declares a message it is the one in the output even if an import defines a message of that name; otherwise the imported definition appears; no message is lost.", "quantifier": "all protocols and import trees", "why_tests_cant": "Depends on all merge orders.", "anchors": ["src/compiler.rs: parse_and_resolve, resolve_single_import"]}
{"id": "C23", "title": "Exported JSON re-imports to the same types", "statement": "Importing the JSON produced for a type yields the same type definitions (names, fields, types, docs, defaults, symbols, sizes, annotations), i.e. export followed by import is the identity up to representation details that have no meaning in Avro.", "quantifier": "all well-formed type tables", "why_tests_cant": "A round trip over unbounded recursive structures with shared and recursive types.", "anchors": ["src/model/json.rs: schema_to_json", "src/import.rs: json_to_schema, flatten_schema"]}
{"id": "C24", "title": "Importing nested definitions hoists them without changing meaning", "statement": "After importing a JSON schema, every named type nested anywhere in it is registered on its own, inner types before the types containing them, no registered type contains another definition inline, and substituting definitions for names recovers the imported schema.", "quantifier": "all JSON-imported schemas", "why_tests_cant": "Nesting depth and sharing are unbounded.", "anchors": ["src/import.rs: flatten_schema, flatten_and_register"]}
{"id": "C25", "title": "Warnings are neither lost nor leaked between compilations", "statement": "Every warning raised by a compilation is delivered exactly once: in the result on success, or through the drain call on failure; a later compilation never reports warnings of an earlier one.", "quantifier": "all sequences of compile and drain calls on one builder, with success and failure at every stage", "why_tests_cant": "It is a property of all call histories.", "anchors": ["src/compiler.rs: IdlCompiler::compile, compile_file, drain_warnings, Idl::convert_impl, Idl2Schemata::extract_directory"]}
{"id": "C26", "title": "Output does not depend on hash-map iteration order", "statement": "Compiling the same input twice gives the same JSON even though annotations and messages are kept in hash maps with randomized iteration order.", "quantifier": "all iteration orders of annotation and message maps", "why_tests_cant": "Iteration order is randomized per process; a test run samples a few orders.", "anchors": ["src/model/json.rs: protocol_to_json, schema_to_json, message_to_json"]}
{"id": "C27", "title": "The two front ends accept the same inputs", "statement": "Protocol/schema compilation and schema extraction succeed and fail on the same inputs, except that compilation additionally rejects files with neither a protocol nor a main schema.", "quantifier": "all inputs", "why_tests_cant": "Agreement of two entry points on every input.", "anchors": ["src/compiler.rs: Idl::convert_impl, Idl2Schemata::extract_impl, IdlCompiler::compile"]}
{"id": "C28", "title": "Namespace scoping", "statement": "A declared type's namespace is the prefix of its dotted identifier if any, else its namespace annotation, else the enclosing namespace; unqualified references inside a record resolve in that record's namespace; a record's namespace never leaks to the declarations after it.", "quantifier": "all protocols/schemas and declaration sequences", "why_tests_cant": "Quantifies over declaration sequences with arbitrary namespace changes.", "anchors": ["src/reader.rs: compute_namespace, walk_record, walk_enum, walk_fixed, walk_nullable_type, walk_protocol"]}
{"id": "C29", "title": "Duplicate fields, symbols and parameters are rejected", "statement": "Accepted records have distinct field names, accepted enums have distinct symbols and a default that is one of the symbols, accepted messages have distinct parameter names; a one-way message has a null response.", "quantifier": "all declarations", "why_tests_cant": "Arbitrary-length lists.", "anchors": ["src/reader.rs: walk_record, walk_enum, walk_message"]}
{"id": "C30", "title": "Every doc comment is attached or reported", "statement": "Each doc comment in the source is either attached to declarations as documentation or reported as out of place exactly once, never both; a declaration gets the closest doc comment that directly precedes it.", "quantifier": "all token streams and declaration positions", "why_tests_cant": "Arbitrary token sequences.", "anchors": ["src/doc_comments.rs: extract_doc_comment", "src/reader.rs: extract_doc_from_context, collect_orphaned_doc_comment_warnings"]}
{"id": "C31", "title": "Doc comment clean-up keeps the text", "statement": "Removing comment decoration and common indentation from a doc comment only deletes leading whitespace and star decoration of lines: it keeps the number of lines and each line's remaining text.", "quantifier": "all comment texts", "why_tests_cant": "Arbitrary text and indentation.", "anchors": ["src/doc_comments.rs: strip_indents, try_strip_ws_indent, common_prefix"]}
{"id": "C32", "title": "Spelling suggestions are within the stated edit distance and exist", "statement": "A suggested replacement for an unknown type is either a primitive type or a registered type, and lies within the threshold edit distance; the distance computed is the true edit distance.", "quantifier": "all names and registries", "why_tests_cant": "Dynamic-programming correctness over all string pairs.", "anchors": ["src/suggest.rs: levenshtein, max_edit_distance", "src/compiler.rs: suggest_similar_name", "src/reader.rs: suggest_keyword"]}
{"id": "C33", "title": "Extracted files do not overwrite each other", "statement": "Writing extracted schemas to a directory creates one file per registered type.", "quantifier": "all registries", "why_tests_cant": "Depends on the multiset of simple names across namespaces.", "anchors": ["src/main.rs: run_idl2schemata", "src/compiler.rs: NamedSchema"]}
{"id": "C34", "title": "Imported logical types keep their base type", "statement": "Importing a JSON schema never changes the underlying primitive type of an annotated primitive: re-exporting an imported annotated primitive produces the same base type.", "quantifier": "all JSON schemas", "why_tests_cant": "All combinations of base types and annotation maps.", "anchors": ["src/import.rs: parse_annotated_primitive", "src/model/schema.rs: parse_logical_type"]}
{"id": "C35", "title": "Declaration order is preserved", "statement": "Types appear in the registry (and so in the extracted schemata) in source order with imported types at the position of the import statement; on success every locally declared type is registered with exactly its declared definition.", "quantifier": "all declaration sequences and import trees", "why_tests_cant": "All interleavings of imports and declarations.", "anchors": ["src/compiler.rs: process_decl_items", "src/reader.rs: walk_protocol, walk_idl_file"]}
{"id": "C36", "title": "Source spans and positions are in range", "statement": "Byte offsets derived from line/column positions and token positions lie within the source and at the right character, so that diagnostics can always be rendered.", "quantifier": "all sources, lines, columns and token positions", "why_tests_cant": "All texts incl. multi-byte characters.", "anchors": ["src/reader.rs: line_col_to_byte_offset, span_from_offsets"]}
{"id": "C37", "title": "The command line writes results only on success, to where OUTPUT says, and prints the library's warnings", "statement": "idl writes exactly the library's protocol or schema to the output file, or to standard output when OUTPUT is absent or '-', and only when compilation succeeded; idl2schemata writes only after all inputs compiled; every warning the library reports is printed.", "quantifier": "all inputs, all argument combinations and all outcomes of the file system operations", "why_tests_cant": "Argument, outcome and failure combinations are unbounded; tests sample a few invocations.", "anchors": ["src/main.rs: run_idl, run_idl2schemata, write_output"]}
{"id": "C38", "title": "The parser accepts exactly the grammar, with one reading", "statement": "A token sequence is accepted exactly when the published grammar derives it, and then the tree handed to the compiler is the only reading the grammar gives; a text the grammar does not derive is rejected.", "quantifier": "all token sequences (and through the lexer all texts)", "why_tests_cant": "Token sequences are unbounded; tests sample accepted and rejected texts and cannot exclude a second reading.", "anchors": ["src/generated/idlparser.rs", "src/reader.rs: parse_idl"]}
{"id": "C39", "title": "Tokens are found by longest match and no text is lost", "statement": "The text is cut from left to right into the longest tokens (ties: first rule), characters that begin no token are reported, and the pieces joined give the text back.", "quantifier": "all texts", "why_tests_cant": "All texts.", "anchors": ["src/generated/idllexer.rs", "src/reader.rs: parse_idl"]}
{"id": "C40", "title": "Layout does not matter", "statement": "Replacing white space and plain comments between tokens by other white space or plain comments changes neither the significant tokens nor the compiled document.", "quantifier": "all texts and all ways to lay out their tokens", "why_tests_cant": "Layouts are unbounded.", "anchors": ["src/generated/idllexer.rs", "src/reader.rs: parse_idl"]}
{"id": "C41", "title": "What is read is what is written", "statement": "For every accepted source text, the types, fields, defaults, annotations, sizes and messages handed to the compiler are exactly those the text denotes: type expressions stand for their Avro types (with logical types from keywords and annotations), every literal denotes a value in range, JSON values keep their structure with the last of equally named members, and nothing written is silently replaced.", "quantifier": "all source texts", "why_tests_cant": "Type expressions and JSON values nest without bound; literals range over all spellings.", "anchors": ["src/reader.rs: walk_full_type, walk_json_value, walk_variable, walk_message, parse_integer_literal"]}
{"id": "C42", "title": "Imported JSON schemas and protocols mean what Avro says", "statement": "Importing an .avsc or .avpr document adds exactly the types, fields, names, aliases, defaults, logical types, custom properties and messages that the Avro specification assigns to the document.", "quantifier": "all valid JSON schema and protocol documents", "why_tests_cant": "Documents nest without bound and combine attributes freely; tests sample a few.", "anchors": ["src/import.rs: import_schema, import_protocol, json_to_schema, json_to_field, json_to_message"]}
{"id": "C43", "title": "The written text is the JSON document, and can be read back", "statement": "The text the command line writes is a JSON text that denotes exactly the computed document; different documents give different texts; and the tool itself reads the text back to the same document.", "quantifier": "all documents", "why_tests_cant": "Strings to escape, numbers and nesting are unbounded.", "anchors": ["src/main.rs: run_idl, run_idl2schemata", "src/import.rs: parse_json_with_comments"]}
{"id": "C44", "title": "Imported JSON files are read exactly by the JSON grammar, with comments", "statement": "A file imported as schema or protocol is read as value j exactly if its text, with // and /* */ comments allowed wherever white space is, denotes j by the JSON grammar (RFC 8259), with the last of equally named members and nesting up to the reader's limit; all other texts are rejected, and no text denotes two values.", "quantifier": "all texts", "why_tests_cant": "Comments, escapes, numbers and nesting combine without bound; comment marks inside strings must be kept.", "anchors": ["src/import.rs: parse_json_with_comments"]}
{"id": "C45", "title": "Output files can be imported again, with the same types and messages", "statement": "When the JSON of a compiled protocol or schema, or an extracted schema, has been written to a file, an IDL file that imports this file compiles without errors and has the same types, under the same names, and the same messages as the original.", "quantifier": "all compiled inputs and all places of the file", "why_tests_cant": "Involves printer, reader, importer, registry and reference checks for unboundedly many types.", "anchors": ["src/model/json.rs: protocol_to_json, schema_to_json", "src/import.rs: import_protocol, import_schema, parse_json_with_comments", "src/compiler.rs: resolve_single_import"]}
{"id": "C46", "title": "The document of a schema defines exactly the types the schema mentions", "statement": "The .avsc document of a schema file, and each extracted document, defines every type its schema refers to, directly or through definitions of other types, exactly once, and no other type.", "quantifier": "all accepted inputs", "why_tests_cant": "Reachability in the graph of references, which is unbounded and may be cyclic.", "anchors": ["src/model/json.rs: schema_to_json, build_lookup", "src/compiler.rs: Idl::convert_impl, Idl2Schemata::extract_impl"]}
{"id": "C47", "title": "Undefined names and clashing definitions are reported where they are written", "statement": "When a compilation fails because of undefined names, the diagnostics name every undefined name once, in the order of their positions, each at a place of the compiled text or an imported IDL file where it is written; names that only a JSON file mentions are reported at an import statement, with the list of imported JSON files. When it fails because a type may not be defined, the position is the beginning of a type declaration. Making the diagnostics never panics.", "quantifier": "all source texts, import graphs and file systems", "why_tests_cant": "Byte positions depend on every preceding character, and names can come from any depth of imports.", "anchors": ["src/compiler.rs: validate_all_references, process_decl_items", "src/reader.rs: walk_protocol and below", "src/error.rs: ParseDiagnostic"]}
{"id": "C48", "title": "Command lines mean what the usual conventions say", "statement": "For every list of arguments: `idl` and `idl2schemata` get the import directories and positional arguments that the usual conventions for options give (`--import-dir D` and `--import-dir=D` anywhere, everything after `--` positional, a single dash positional), in order; a request for help prints the help and does nothing else; wrong arguments write nothing. The exit status is 0 exactly if help or the version was asked for or the subcommand succeeded, 2 if no known subcommand is named, 1 otherwise. A successful `idl` prints the warnings and writes exactly one document, and a failed one writes nothing.", "quantifier": "all argument lists, file systems and outcomes of the library", "why_tests_cant": "Argument lists are unbounded and options can be interleaved with positional arguments in any way.", "anchors": ["src/main.rs: main, parse_idl_args, parse_idl2schemata_args, run_idl, run_idl2schemata, write_output"]}
{"id": "C49", "title": "Syntax errors are reported, at a place in the text", "statement": "Whatever errors lexer and parser find in a text, and however they are worded, reporting them does not panic. If the parser found none, each error of the lexer becomes a warning. Otherwise the text is rejected, with at least one and at most as many errors as the parser found. Every report can be shown as a part of the text, begins with the line and column of one of the errors, and, if it comes from the parser, starts at the boundary of a character.", "quantifier": "all texts and all lists of errors with tokens in the text", "why_tests_cant": "The code cuts messages and sources at computed byte offsets; a panic needs the right combination of multi-byte characters, message and position.", "anchors": ["src/reader.rs: parse_idl_named, CollectingErrorListener, refine_errors_with_source, enrich_antlr_error, sanitize_antlr_message"]}
{"id": "C50", "title": "Reports of syntax errors name the mistake", "statement": "A report lists each expected token once, in order and in readable form. If the file ends too early, the report points at the innermost opening brace that is never closed and says which kind of declaration it belongs to. Empty unions, missing type parameters, missing names, trailing commas in enums, sizes of fixed types that are not integers and missing closing braces before a declaration are named as such, at their place in the text.", "quantifier": "all texts with the mistake, whatever surrounds it, and all sets of expected tokens", "why_tests_cant": "The mistake can be surrounded by any text, including strings and comments with braces, and sets of expected tokens are arbitrary.", "anchors": ["src/reader.rs: enrich_antlr_error, sanitize_antlr_message, detect_unclosed_brace, detect_empty_union, detect_empty_type_parameter, detect_missing_name, detect_trailing_comma_in_enum, detect_fixed_non_integer, detect_missing_close_brace_before_declaration"]}
{"id": "C51", "title": "Extracting a directory extracts each IDL file below it, as if alone", "statement": "Given a directory, schema extraction handles exactly the files below it, at any depth, whose name is a non-empty stem followed by .avdl, in the order of their paths and each independently of the others. It succeeds if and only if each of them can be extracted, and then delivers their schemas and warnings one after the other; otherwise it fails with the error of the first that cannot.", "quantifier": "all directory trees, file contents and search directories", "why_tests_cant": "All shapes of directory trees and all combinations of failing and succeeding files.", "anchors": ["src/compiler.rs: Idl2Schemata::extract, Idl2Schemata::extract_directory"]}
{"id": "C52", "title": "Floating-point literals denote the nearest double", "statement": "Every floating-point literal of the language, decimal or hexadecimal, with sign, exponent or type suffix, is read as the double nearest to the number written (of two equally near the one with even last digit), with the sign written, and as an infinity exactly if it is beyond the largest double by half a unit or more. NaN, Infinity and -Infinity are read as such and appear as strings.", "quantifier": "all floating-point literals of any length and with any exponent", "why_tests_cant": "Rounding goes wrong only for particular digits; literals have no bound on their length or exponent.", "anchors": ["src/reader.rs: parse_floating_point_literal, parse_float_text, parse_hex_float"]}
{"id": "C53", "title": "A source file is rejected exactly for one of the documented mistakes", "statement": "A source text that the grammar derives is accepted if and only if it has none of these mistakes: an annotation with an unreadable value, with a reserved name, or a namespace, aliases or order annotation of the wrong form; a declared name that is a type keyword; two fields, parameters or symbols with one name; a default that does not fit the type; a union inside a union or with two members of one name; an optional null; a decimal or fixed size out of range; an enum default that is no symbol; an annotated reference; a one-way message with a result. No other text is rejected while reading one file.", "quantifier": "all source texts and all syntax trees", "why_tests_cant": "That nothing else is rejected, and that every such mistake is found wherever it is nested, concerns all texts.", "anchors": ["src/reader.rs: parse_idl_named, walk_idl_file, walk_protocol, walk_record, walk_enum, walk_fixed, walk_full_type, walk_message, walk_variable"]}
{"id": "C54", "title": "Warnings of a file are exactly those due", "statement": "An accepted file gives one warning for every alias that does not consist of legal names and one for every union whose annotations are dropped (naming all of them), in the order of the source, after those for unrecognised text and out-of-place doc comments, and no others. Each of them points at exactly the annotation it is about.", "quantifier": "all accepted files", "why_tests_cant": "A lost or doubled warning may need any nesting of declarations; the claim is about all of them.", "anchors": ["src/reader.rs: walk_schema_properties, walk_full_type, walk_aliases, parse_idl_named"]}
{"id": "C55", "title": "Exactly the right projects compile", "statement": "A compilation succeeds if and only if: the file can be read; every import met, directly or in imported files, can be found, read and (for JSON) converted; every declared type has a legal name that no type met before has; every default of a field whose types are all known at that point conforms to its type; and every name that a type, the main schema or a message not overridden refers to is defined in the end. Which JSON documents can be converted does not depend on what has been compiled before.", "quantifier": "all file systems, search directories, builder histories and source texts", "why_tests_cant": "That nothing else makes a compilation fail, and that every one of these faults is found whatever the graph of imports, concerns all projects.", "anchors": ["src/compiler.rs: parse_and_resolve, process_decl_items, resolve_single_import, validate_all_references", "src/import.rs: import_protocol, import_schema, json_to_schema, json_to_field, json_to_message", "src/resolve.rs: SchemaRegistry::register"]}
{"id": "C56", "title": "The error reported is the first problem, at the right place", "statement": "When a compilation fails, its error says what is wrong and comes first in the order in which declarations and imports are followed: the file or an import that cannot be read, a declared name that is illegal or taken, invalid default values (all of the declaration, in order), a JSON document that is not a schema or protocol; or, when all of that is fine, exactly the undefined names. A failing import is reported at an import statement, an invalid default value at that value.", "quantifier": "all file systems, search directories, builder histories and source texts", "why_tests_cant": "Which problem is met first, and that none of several is dropped, depends on the whole graph of imports and on the layout of the texts.", "anchors": ["src/compiler.rs: process_decl_items, resolve_single_import, wrap_import_error, parse_and_resolve", "src/import.rs: resolve_import", "src/model/schema.rs: validate_record_field_defaults"]}
{"id": "C57", "title": "The error of a file is its first mistake", "statement": "When a file is rejected although it follows the grammar, the error names a mistake that is really in the file (with the right name, number, symbol, alias, annotation or explanation), and the first one: files are read from left to right and everything before the reported mistake is fine. Conversely the first mistake of a file, in this sense, is what is reported. The error points at exactly the construct that is wrong, in the file that contains it.", "quantifier": "all source texts and syntax trees", "why_tests_cant": "A wrong or misleading error needs a combination of mistakes in one file that no list of test files covers.", "anchors": ["src/reader.rs: walk_idl_file, walk_protocol, walk_record, walk_enum, walk_fixed, walk_variable, walk_message, walk_union_type, walk_schema_properties, walk_json_value"]}
{"id": "C58", "title": "Warnings say what they are about and point at it", "statement": "Every warning of a compilation has a message and a label that fit its kind; the message quotes the text it is about (the unrecognised text, the alias, the names of the dropped annotations) and gives the right line and column where it gives one; and the marked range lies in the file concerned, at the unrecognised text, the doc comment, the annotation or the union. Warnings of imported files carry the name of the file.", "quantifier": "all sources and imported files, all warnings of a compilation", "why_tests_cant": "Line, column and byte offset depend on everything that stands before, and the label is chosen by searching the message, which contains text of the user's choice.", "anchors": ["src/reader.rs: Warning, out_of_place_doc_comment, annotations_dropped_on_union, non_standard_alias_name, labels, CollectingErrorListener::syntax_error", "src/compiler.rs: compile, drain_warnings"]}
{"id": "C59", "title": "The report on a JSON document names its first defect and the way to it", "statement": "When an imported JSON schema or protocol is not usable, the error says what is wrong with it (what is missing, of the wrong kind, unknown or too large) and where: through which types, messages, parameters, fields, items and values one gets there. It is the first defect in the order of the document, types before messages and parameters before results before errors; and there is a report exactly when there is a defect.", "quantifier": "all JSON documents, all nestings of records, arrays, maps and unions", "why_tests_cant": "Defects can be at any depth and several at once; which one is first, and the way to it, depends on the whole document.", "anchors": ["src/import.rs: import_protocol, import_schema, json_to_schema, object_to_schema, parse_record, parse_enum, parse_fixed, parse_array, parse_map, json_to_field, json_to_message"]}
{"id": "C60", "title": "Output documents are valid Avro and mean what was declared", "statement": "The document written for a protocol or a schema file, and each extracted schema, is a valid Avro document: every object has the members its type demands, with values of the right kind, at every depth. Read as the Avro specification says, it defines exactly the declared types (for a schema: those it mentions), each once and with the same fields, types, defaults, orders, aliases, documentation and annotations, and has the declared messages, name, namespace and documentation.", "quantifier": "all source texts, all imported files, all nestings of types, all outputs of idl and idl2schemata", "why_tests_cant": "The output is read by other Avro implementations; whether they see the declared types depends on every combination of annotations, namespaces and nestings.", "anchors": ["src/model/json.rs: protocol_to_json, schema_to_json, field_to_json, message_to_json, build_lookup", "src/compiler.rs: Idl::convert, Idl2Schemata::extract"]}
{"id": "C61", "title": "Resources needed are in proportion to the declarations", "statement": "The document written for a protocol or a schema file, and each extracted schema, is at most a constant times as large as the declared types and messages, however often and in whatever way the types mention each other. What is built on the way, in particular to check the default values of fields, is bounded likewise.", "quantifier": "all source texts, all imported files, all graphs of types, recursive or not", "why_tests_cant": "Blow-up needs graphs of types in which types are shared at many levels; no finite set of files shows a bound.", "anchors": ["src/model/json.rs: schema_to_json, protocol_to_json, build_lookup", "src/model/schema.rs: validate_record_field_defaults, resolve_for_validation, resolve_for_validation_inner", "src/compiler.rs: Idl::convert, Idl2Schemata::extract"]}
{"id": "C62", "title": "The result depends only on the files looked at", "statement": "The result of a compilation (output, warnings and errors) depends only on the content of the input and of the files it imports, directly or indirectly, on whether the imported names exist in the directories searched up to the first that has them, and on which file the paths found stand for. Adding, changing or removing any other file, including a file of the same name in a directory searched later, makes no difference.", "quantifier": "all file systems, all pairs of file systems that agree on what is looked at, all inputs, import directories and chains of imports", "why_tests_cant": "Tests fix one file system; the claim compares all pairs of them.", "anchors": ["src/compiler.rs: compile_file, compile_str, parse_and_resolve, process_decl_items, resolve_single_import", "src/import.rs: resolve_import, import_protocol, import_schema"]}
{"id": "C63", "title": "What is compiled obeys the rules of Avro", "statement": "Every compiled protocol or schema obeys the rules of the Avro specification that go beyond the shape of documents: types, fields, symbols and parameters have legal names, no record has two fields, no enum two symbols and no message two parameters of one name, the default symbol of an enum is one of its symbols, no union contains a union or the same type twice, and one-way messages return null.", "quantifier": "all sources, import graphs and file systems for which the compilation succeeds; every type at every depth and every message of the result", "why_tests_cant": "The claim is about everything the compiler accepts; tests reject some illegal inputs each.", "anchors": ["src/reader.rs: walk_record, walk_enum, walk_union_type, walk_message", "src/import.rs: json_to_schema, parse_record", "src/resolve.rs: SchemaRegistry::register, validate_schema_name"]}
{"id": "C64", "title": "The contexts of an error lead from the compiled file to its place", "statement": "The messages wrapped around an error name, outermost first, the IDL files on the way to it: each is imported by an import statement of the one before, the first by the compiled file; none is named twice. All positions of the error are in the last file named, or in the compiled file if none is. If the last one named could not be read or parsed, the message says so. Apart from these messages the result is that of the compilation without them.", "quantifier": "all sources, import graphs (including cyclic ones), file systems and search directories for which the compilation fails", "why_tests_cant": "Tests have one or two levels of imports; the chain must be right for every graph and every kind of error.", "anchors": ["src/compiler.rs: compile_file, compile_str, parse_and_resolve, resolve_single_import, process_decl_items", "src/reader.rs: parse_idl_named"]}
{"id": "C65", "title": "Unrelated declarations do not affect the schema of a type", "statement": "The schema extracted for a type depends only on its definition and on those of the types it mentions: it is the same in any two projects that agree on these, whatever else they declare and in whatever order. Likewise the document of a file with a main schema. The document of a protocol that gains some types which mention no later one (at the end: any types) gains elements of `types` at one place and does not change otherwise.", "quantifier": "all pairs of compilations, of any sources, in any file systems, that agree on the types in question", "why_tests_cant": "A statement about pairs of programs: any other declaration could leak into the output through the shared tables of names.", "anchors": ["src/model/json.rs: build_lookup, schema_to_json, protocol_to_json", "src/compiler.rs: extract_impl, convert_impl"]}
{"id": "C66", "title": "An import of IDL stands for the declarations of the imported file", "statement": "Moving consecutive declarations and some messages of a file into another file of the same directory that nothing else imports, with an `import idl` in their place, changes nothing: the file compiles if and only if it did before, with the same types in the same order, the same extracted schemas and the same document.", "quantifier": "all files, all ways to split them, all file systems (with any further imports on both sides)", "why_tests_cant": "A statement about pairs of programs: every declaration, name and import of the moved part is processed in another context, nested in another file, where any of it could be treated differently.", "anchors": ["src/compiler.rs: process_decl_items, resolve_single_import, parse_and_resolve", "src/import.rs: ImportContext"]}
{"id": "C67", "title": "The order of declarations matters only for the order of the output", "statement": "Putting the type declarations of a file in another order, and moving them past its imports, affects neither whether the file compiles nor what its types, extracted schemas, main schema, messages and protocol attributes are; only the order in which types are listed changes.", "quantifier": "all files, all orders of their declarations, all imported files", "why_tests_cant": "There are n! orders of n declarations; types are registered, and defaults checked, as they are met, so each order goes through other intermediate states.", "anchors": ["src/compiler.rs: process_decl_items, validate_schema_defaults", "src/resolve.rs: SchemaRegistry::register", "src/import.rs"]}
{"id": "C68", "title": "Documentation is inert", "statement": "Adding, removing, moving or rewriting doc comments anywhere in the compiled file or in the files it imports changes nothing but the `doc` attributes of the output and the warnings about doc comments that document nothing: the compilation succeeds or fails as before, a failure has the same reason, and the documents, the extracted schemas and the other warnings are the same.", "quantifier": "all files and sets of files importing each other, all placements and texts of doc comments", "why_tests_cant": "A doc comment may stand between any two tokens and contain any text; doc comments share the token stream with the code, and the reader finds them by counting tokens backwards.", "anchors": ["src/doc_comments.rs: extract_doc_comment", "src/reader.rs: parse_idl_named, extract_doc_from_context", "src/model/json.rs: schema_to_json, protocol_to_json", "src/compiler.rs: convert_impl, extract_impl"]}
{"id": "C69", "title": "Extracting from output files gives the same documents again", "statement": "If the output of a compilation, a protocol, a schema or one of the extracted schemas, is written to a file, then the schemas extracted from a protocol that only imports this file are byte for byte the schemas extracted from the original source: those of all types of the protocol, or of the types the schema mentions, and no others.", "quantifier": "all compiled files whose types satisfy the conditions of C45, all output files, all builders and directories", "why_tests_cant": "Output and import are two independent pieces of code that must agree on every default, alias, namespace and annotation of every type; a difference that is harmless once would make documents drift each time they pass through the tool.", "anchors": ["src/model/json.rs: schema_to_json, schema_ref_name, alias_ref_name", "src/import.rs: json_to_schema, import_protocol, import_schema", "src/compiler.rs: extract_impl"]}
{"id": "C70", "title": "Backticks around identifiers do not matter", "statement": "Writing identifiers that are not keywords, or their parts between dots, in backticks, or leaving the backticks out, changes nothing: names of types, fields, symbols, messages, parameters, annotations and namespaces and references to types mean the same; the documents, schemas and warnings are the same, and a failing compilation fails for the same reason.", "quantifier": "all sets of files that import each other, all identifiers in them, all builders, texts and directories", "why_tests_cant": "Identifiers stand in more than a dozen places of the grammar, each read by other code that has to remove the backticks itself; a forgotten place shows only in files that use backticks there.", "anchors": ["src/reader.rs: identifier_text, walk_annotations, walk_variable, walk_record, walk_enum, walk_fixed, walk_message, walk_protocol", "src/generated/idllexer.rs: IdentifierToken"]}
{"id": "C71", "title": "Equivalent notations compile to the same", "statement": "Rewriting files in other notations of the language changes nothing but documentation: `T?` for the union of `T` and `null` in the order its default value asks for, `date`, `time_ms`, `timestamp_ms`, `local_timestamp_ms`, `uuid` and `decimal(p, s)` for the annotated primitive types, `decimal(p)` for `decimal(p, 0)`, `T a, b;` for `T a; T b;`, `void` for `null`, a namespace as annotation or as part of the name, numbers in other bases and strings with other escapes, backticks, layout, and repeated imports. The compilation succeeds or fails as before, for the same reason, with the same documents, schemas and warnings up to `doc` attributes and warnings about doc comments.", "quantifier": "all files and sets of files importing each other, all sequences of rewritings at any places in them, all builders, texts and directories", "why_tests_cant": "Each notation is expanded by its own piece of code at another stage of reading, and interacts with annotations, defaults and nesting; a difference shows only in particular combinations.", "anchors": ["src/reader.rs: fix_optional_schema, try_promote_logical_type, walk_primitive_type, walk_variable, walk_message, compute_namespace, identifier_text", "src/compiler.rs: convert_impl, extract_impl"]}
{"id": "C72", "title": "More import directories do not change what compiles", "statement": "Adding import directories behind those already given changes nothing, neither documents, schemas and warnings nor errors, except for compilations that fail because an imported file is found nowhere. Directories without files may be added anywhere.", "quantifier": "all builders, lists of added directories, file systems, files, texts and directories to compile, and imports nested to any depth", "why_tests_cant": "The search for every import at every depth of nesting must prefer earlier directories; a wrong preference shows only when a later directory happens to have a file of the same name.", "anchors": ["src/import.rs: resolve_import", "src/compiler.rs: import_dir, resolve_single_import, process_decl_items"]}
{"id": "C73", "title": "Importing a file again changes nothing", "statement": "An import statement whose path the same file has imported before, whatever kind of import it is, changes nothing: documents, schemas, warnings and the reason of a failure are the same as without it, in the compiled file as in the files it imports.", "quantifier": "all files and sets of files importing each other, all places of the second import, builders, texts and directories", "why_tests_cant": "The set of imported files is shared by all levels of nesting and filled while files are processed; that a second import has no effect must hold after any history of successful and nested imports.", "anchors": ["src/compiler.rs: resolve_single_import, process_decl_items", "src/import.rs: mark_imported, resolve_import"]}
{"id": "C74", "title": "Compiling a text is compiling the file with that text", "statement": "Compiling a text under the name of a file, with the directory of that file as the working directory, gives exactly what compiling the file gives: document or schemas, warnings, or the same failure.", "quantifier": "all files, texts, builders, directories and sets of files importing each other", "why_tests_cant": "Both entry points share the compilation but set it up differently (directory of the imports, set of files already imported); that the difference cannot be observed must hold for every set of imported files.", "anchors": ["src/compiler.rs: Idl::convert, Idl::convert_str_named, IdlSchema::extract, IdlSchema::extract_str_named, compile_file, compile_str"]}
{"id": "C75", "title": "The layout of the written text is determined by its parts", "statement": "In the text the command line writes, every element of an array and every member of an object begins a line of its own, with nothing else on the lines but the comma that follows; what is written there is exactly what would be written for the element or value alone, moved to the right by two. Strings, numbers, truth values, null, and empty arrays and objects take one line. So a change of one part changes the lines of that part only.", "quantifier": "all documents the JSON library can hold, of any nesting", "why_tests_cant": "Nesting is unbounded and strings may contain line breaks; a test compares one text.", "anchors": ["src/main.rs: run_idl, run_idl2schemata"]}

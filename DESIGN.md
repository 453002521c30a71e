# Formal model of jonhoo/avdl in Lean 4: design

The code under study is the Avro IDL compiler in `/repo` (Rust).  This document
says what is modelled, how each property of `properties.jsonl` is stated and
proved, and what is trusted.

## Trusted base

* Lean 4.33.0's kernel.
* Axioms: only `propext`, `Classical.choice`, `Quot.sound` (Lean's standard ones).
  No axioms are added; no `sorry`, no `native_decide`, no `bv_decide`.
* The faithfulness of the hand-written model.  Every definition cites the file and
  lines it models, and says where it simplifies.
* The following code is **not** modelled and is trusted (its results are model
  inputs, quantified over universally):
  - the `antlr4rust` runtime that interprets the generated lexer and parser
    (`src/generated/`).  The rules themselves are modelled: the lexer rules are read
    off the serialized transition network of `idllexer.rs`, the grammar off the
    functions of `idlparser.rs`.  Trusted is that the runtime takes the longest match
    and, of equal ones, the first rule (with non-greedy loops ending at the first
    possibility), and that the parser accepts what the grammar derives and, where two
    alternatives fit, takes the first.  The compiler theorems do not depend on this:
    they quantify over all parse functions (`World.parse`).  `Verif/Fidelity.lean`
    runs the composed model on 221 IDL texts of the repository's tests and compares with what they
    expect (accepted or rejected, numbers of warnings, places of errors), and single functions with
    their unit tests, 373 checks in all.  These are tests of the model, evaluated by `#guard` while
    building; no theorem depends on them;
  - the crates `serde_json` and `json_comments`, whose sources are not in the repository.  Reading
    and printing JSON text is modelled (`Verif/JsonText.lean`) from their documented behaviour;
    that the crates behave so is trusted;
  - the arithmetic of `f64`: doubles are `m * 2^e`, and that `f64::from_str`, addition,
    multiplication and division round to the nearest double, ties to even, is trusted.  Of
    `powi(2, n)` only its exact values for `-1022 ≤ n ≤ 1023` and infinity above are assumed (class
    `PowTables`).  The printing of doubles and the doubles in JSON texts are parameters;
  - the `regex` crate (the doc-comment expressions are modelled by hand-written matchers);
  - the file system (a finite map from canonical paths to contents),
    `miette` rendering, the traversal of directories by `walkdir` (its result is an input);
  - stack and memory are taken to be unlimited: deeply nested input that overflows the stack of the
    recursive code is outside the model;
  - the crate `lexopt`: cutting up arguments is modelled (`Verif/Args.lean`) from its documented
    behaviour; arguments that are not UTF-8 are outside the model;
  - which syntax errors ANTLR finds and how it words them: the code that rewrites them is modelled
    (`Verif/SyntaxErrors.lean`), the theorems hold for all lists of errors.

## Modelling conventions

* Rust `String`/`&str` become Lean `String` (sequences of Unicode scalar values).
  Where the code counts *bytes* the model counts UTF-8 bytes.
* `HashMap<String, Value>` becomes an association list whose order stands for the
  (arbitrary) iteration order; well-formedness is "no duplicate keys".  Theorems
  quantify over the order.  `serde_json::Map` (a `BTreeMap`, the `preserve_order`
  feature being off) becomes a key-sorted association list, and `IndexMap` an
  association list in insertion order.
* Functions that can fail return `Except`; panics are explicit error values.
* Recursions that follow references through the type table (JSON output, default
  validation, imports) are written with a fuel argument and return `none` when it
  runs out; termination is then a theorem: an explicit amount of fuel always
  suffices and more fuel never changes the result.
* Source spans are carried where they decide something (sorting, partitioning,
  reference identity) and for everything the reader and the compiler report: errors and
  warnings of the reader, failing imports, invalid defaults, clashing and undefined names.
  The positions of syntax errors are not carried.

## Module map

| module | models |
|---|---|
| `Verif/Json.lean` | `serde_json::Value`, sorted maps |
| `Verif/Names.lean` | name composition/splitting, reference shortening, name validity |
| `Verif/Schema.lean` | `AvroSchema`, `Field`, logical types, union keys, property merging |
| `Verif/Defaults.lean` | default validation, `resolve_for_validation` |
| `Verif/Registry.lean` | `SchemaRegistry`, unresolved references |
| `Verif/Serialize.lean` | `schema_to_json`, `protocol_to_json`, `to_json` of the extracted schemata |
| `Verif/Import.lean` | JSON import and flattening |
| `Verif/JsonText.lean` | `parse_json_with_comments`, `to_string_pretty` |
| `Verif/Literals.lean` | string and integer literals |
| `Verif/Floats.lean` | floating-point literals |
| `Verif/DocComments.lean` | clean-up of doc comments |
| `Verif/LexerTables.lean`, `Verif/Lexer.lean` | the rules of the generated lexer, longest match |
| `Verif/Parser.lean` | the grammar of the generated parser, from tokens to parse trees |
| `Verif/Ast.lean`, `Verif/Reader.lean` | parse trees and the tree walker |
| `Verif/Compiler.lean` | import resolution, declaration processing, the two front ends, warnings |
| `Verif/Contexts.lean` | the compilation with the messages wrapped around errors |
| `Verif/Diagnostics.lean` | the diagnostic for undefined names |
| `Verif/Text.lean`, `Verif/SyntaxErrors.lean` | operations of `str`; from ANTLR's errors to the reports |
| `Verif/Args.lean` | command line arguments, help, exit status |
| `Verif/Cli.lean` | the two commands |
| `Verif/WarningText.lean` | messages and labels of warnings |
| `Verif/Suggest.lean` | edit distance and spelling suggestions |
| `Verif/Spans.lean` | source spans of errors |
| `Verif/Spec/*.lean` | small independent specifications |
| `Verif/Lemmas/*.lean` | helper lemmas |
| `Verif/Props/*.lean` | the property theorems with non-vacuity examples |

Specifications, and the property they serve:
`OnePass` (C03, C04, C06, C07: what a one-pass Avro parser sees), `WellFormed` (side conditions of
the output theorems), `Default` (C11-C13), `LegalName` (C09), `Literal` (C18, C19), `Doc` (C31),
`Reading` (C14, C15), `Annotation` (C16), `LogicalType` (C17), `Source` (C28, C29, C30: relation of
parse tree and result), `DocPlaces` (C30), `Compile` (C10, C20-C22, C25, C27, C35), `Flat` and
`Hoist` (C24), `Reorder` (C26), `Edit` (C32), `RoundTrip` (C23), `Coherent` (C03, C04, C06, C07 end
to end), `Grammar` (C38: the grammar as inductive relations), `Lexing` (C39: what a token is),
`Layout` (C40: laid out token sequences), `Reformat` (C40: texts and file systems that differ in layout), `JsonValue` (C41: what JSON values denote),
`SourceLiterals` (C41: the literals of a file), `AvroJson` (C42: what JSON schemas and protocols mean),
`JsonText` (C43, C44: the JSON grammar with comments and what its texts denote),
`Held`, `Reimport` (C45: what survives writing and reading), `Tokens` (C39: the texts of each kind of
token), `SourceSpans`, `Positions` (C36, C47: what a position points at), `Directory` (C51), `Floats` (C52: doubles and
the numbers that literals denote), `Acceptance` (C53, C54: files without mistakes, and what to
warn about), `CompileOk` (C55: importable documents and acceptable events),
`Problem` (C56: the first thing that is wrong),
`Mistake` (C57: the first mistake of a file), `Where` (C54, C57: the construct a report is about),
`Warnings` (C54, C58: lines, columns and places of warnings, fitting labels),
`ImportDefect` (C56, C59: the first defect of a JSON document and the way to it),
`ValidDoc` (C60: valid documents, and documents that define given types),
`Size` (C61: sizes of schemas, messages and JSON values),
`Hermetic` (C62: the questions a compilation asks the file system), `Legal` (C63: the rules for
names, repetitions and unions), `Contexts` (C64: chains of imports), `Local`
(C65: equal definitions), `Split` (C66: a file and its parts),
`Rearrange` (C67: declarations in another order),
`Redocument` (C68: other doc comments, documents up to `doc`),
`Again` (C69: documents by full name), `Backticks` (C70: tokens up to backticks), `Notations` (C71: rules between parse trees), `SearchPath` (C72: missing imports), `TextOfFile` (C74: no file imports the compiled one), `JsonLayout` (C75: texts in brackets),
`SyntaxAnnotations` (C50: annotations in messages).

All property theorems depend at most on `propext`, `Classical.choice` and `Quot.sound`
(`#print axioms`); the witnesses are closed by `rfl`, `decide` or `simp`.

## Properties

* **C01** name composition: model `make_full_name`/`split_full_name`; list induction over characters.
* **C02** reference shortening: independent `Spec` resolution of a name in a namespace; the statement is false for a namespace-less type referenced from inside a namespace and for such a type named like a keyword; proved under the exact side condition, negation proved by witness.
* **C03, C04, C06** one-pass reader: `Spec` function turning an output JSON document into the sequence of definitions and references an Avro parser meets, and a checker that runs it.  Invariant by induction on fuel and schema: checker started in the serializer's known set ends in its final known set.  False when a namespace-less imported type is mixed with a namespaced protocol (negation witness); proved under the coherence condition otherwise.  `Props/EndToEnd.lean` derives everything but the namespace condition (`Spec/Coherent.lean`) for each successful compilation, so C03, C04, C06, C07 and C26 hold from source text to document; without JSON imports and with all types in a namespace, or all in none, no condition remains (`coherent_of_idl`).
* **C05** termination: measure = number of names not yet emitted, then schema depth; explicit fuel bound and fuel-monotonicity.
* **C07** extraction: same invariant with empty initial known set per type.
* **C08, C09** registry: refinement to a specification over histories (lists of attempts).
* **C10** undefined references: independent inductive relation "name occurs as reference in schema".
* **C11, C12** default validation vs. an inductively defined conformance relation.
* **C13** reference-typed defaults: fuel-based unfolding with termination proof; soundness w.r.t. conformance with unknown positions; the forward-reference gap is documented by a negation witness.
* **C14** optional shorthand; **C15** unions; **C16** reserved annotations; **C17** logical types; **C28** namespaces; **C29** duplicates: theorems about the walker over all ASTs, by induction over the AST.
* **C18, C19** literals: positional-value specification; escape function as specification.
* **C20, C21, C22, C35** imports: file-system model, list lemmas, fuel bound by number of unread files.
* **C23, C24, C34** JSON import: round trip through the serializer model; flatten; base-type preservation (false: negation witness).
* **C25, C27, C33** front ends: state machine over call histories; file-name collisions (negation witness).
* **C26** permutation invariance of output.
* **C30, C31, C36** token streams, comment clean-up, positions.
* **C32** edit distance vs. the recursive definition; false for non-ASCII (negation witness).
* **C37** command line: runs are lists of effects; the theorems say which effects there are, in
  terms of the library's result and the file system's answers.
* **C38** grammar: recursive-descent parser over tokens against inductive grammar relations, sound
  and complete, hence unambiguous.
* **C39** lexer: regular expressions with derivatives against the matching relation; the lexer's
  loop against "longest, then first rule".
* **C40** layout: a token ends at every delimiter, hence blanks between tokens can be exchanged; the
  parser, the reader and the compiler commute with forgetting source positions, and positions are not
  part of the output, hence the documents are the same.
* **C41** meaning: relation between parse tree and read result with exact types (`Spec/Source.lean`);
  inductive meaning of JSON values; literals of an accepted text are lexer tokens (induction over the
  grammar) and all were read (induction over the reader).
* **C42** import: inductive meaning of JSON documents; the importer computes it (induction on the
  derivation) except where it differs (witnesses).
* **C43, C44** JSON text: inductive grammar with denotation; comment stripping and the reader accept
  exactly its texts (both directions by induction), the printer produces one of them.
* **C45** output files can be imported: an invariant of everything the compiler produces
  (`Lemmas/Kept.lean`) gives the conditions of C23 and C43; then the importing compilation is
  computed.
* **C46** types of a schema document: the set of names written is closed under references and
  contains only mentioned names (induction on the writer, `Lemmas/Closed.lean`).
* **C47** positions of undefined names and clashes: traversal of the grammar relations (every position
  in a parse tree is that of a token, and its bytes are the token's), carried through the reader, the
  imports and the registry; then the diagnostic is computed.
* **C48** command lines: the conventions as inductive relations, the parser of arguments proved against
  them in both directions (what it accepts is said, what is said it accepts), then the exit status.
* **C49** reports of syntax errors: the code from ANTLR's error list to the diagnostic is modelled on
  texts with byte offsets where every slice can panic; all functions are proved total for any
  messages, with the place and the beginning of the message as invariant.
* **C50** what the reports say: braces by the grammar of `Spec/SyntaxErrors.lean` against the byte
  loop; for each named mistake, texts of this shape with any surroundings lead to the report.
* **C51** directories: the walk is an input (a list of entries, directories included); induction over
  the files.
* **C52** floating-point literals: the digit loops and the arithmetic on doubles are modelled, doubles
  being `m * 2^e`; the specification is about rational numbers (Mathlib's `ℚ`): a nearest double, by
  comparison with all doubles.  Rounding is proved correct for all rationals, then each operation.
* **C53** acceptance: a specification by inductive predicates over the syntax tree, independent of the
  schemas built (names of union members are those written); every step of the reader is shown to
  succeed exactly if its part of the specification holds, whatever was read before.
* **C54** warnings: the specification collects what is worth a warning from the tree; every step of
  the reader adds warnings about exactly its part.  Positions as for C57.
* **C55** compilation as a whole: an event (declaration or imported document) goes through exactly if it
  is acceptable where it stands; for defaults, resolution succeeds exactly if every name mentioned is
  defined (paths through the definitions are cut at names visited before); importable JSON documents
  are given by an inductive predicate.
* **C56** errors: `Problem` gives the first thing that is wrong along the trace of declarations and
  imports; a failing run of an event is matched with `EventFails`, and the fields the check lists are
  those with bad defaults.  Positions are followed from the parse tree as for C47.
* **C57** mistakes: `FileMistake` follows the source from left to right; every step of the reader is
  shown to fail exactly with the first mistake of its construct (`Rejects`), using C53 for what comes
  before.  Positions: every error of the reader is shown to come with the span of a grammar node
  `ErrorAbout` accepts, nodes are runs of tokens, and a run of tokens of an accepted text covers the
  text from the first to the last of them (`Lemmas/NodeSpans.lean`).
* **C58** what warnings show: line and column are counted along the pieces of the text (the lexer is
  assumed to report where a piece begins, in characters, and to quote it verbatim); messages are
  compared with the phrases searched for, splitting them at quotes, commas and colons.
* **C59** reports on JSON documents: the importer carries the contexts it puts in front of a message
  as a list of steps; `SchemaDefect`, `ProtocolDefect` describe the first defect of a document
  without a computation, and both directions are proved by mutual induction.  The wording is left
  out.
* **C60** output is valid Avro and means what was declared: `ValidProtocol`, `ValidType` describe
  the documents the Avro specification allows, `ProtocolDoc`, `SchemaDoc` (from C42) what they mean.
  Validity is proved by induction on the serializer with the invariants of everything compiled
  (Plain, Kept).  Valid documents have a meaning, and the importer finds it; so the meaning follows
  from C23.  `C60_unique`: a document has at most one meaning.
* **C61** resources: sizes are numbers of nodes.  Each definition is written once, so the size of
  what is still to be written pays for the definitions put in the place of references (induction on
  the serializer).  For the check of defaults a family of sources is given for which what is built
  doubles with each type; that the sources are accepted is proved for all of them, not by running.
* **C62** what a result depends on: `Looked` lists the questions to the file system; two worlds that
  answer them alike are followed step by step (induction on the nesting of imports).
* **C63** legality of what is accepted: from what the reader can return (`Lemmas/ReaderDecls`) and the
  registry; for IDL only, and up to the spelling of inner names, which the code does not check.
* **C64** contexts of errors: `Verif/Contexts.lean` has the compilation again, with the messages
  wrapped around errors; forgetting them gives the functions of `Verif/Compiler.lean`.  The chain of
  imports is found by induction on the nesting; the positions are those of C56.
* **C65** locality: writing a type consults the table only for names it mentions, and the set of
  names written so far only for those and its own; so tables and sets that agree there give the same
  document (induction on the fuel).  Positions are erased first, by the lemmas for C40.
* **C66** splitting a file: the trace of the whole is carried over to the parts and back by
  induction, the files met agreeing but for the new file; the events are then the same, up to
  positions, but for the import, so the registries agree, and the messages as sets.
* **C67** order of declarations: the trace of any order is that of the imports with the declarations
  added; a declaration that goes through is the definition of its name, other names are
  defined by the imports, so the definitions agree.  Success by C55: a default that conforms in the
  end conforms whenever all it mentions is known (induction on conformance).
* **C68** documentation: as C40, with positions, token numbers and documentation erased (`mute`):
  the parser, the reader and the compiler commute with erasing; the serializer commutes up to `doc`
  members (`Spec.Redocument.undoc`).
* **C69** extracting again: types that are the same in the sense of C45 are written as the same JSON
  (induction on the fuel of the serializer; annotations are written in the order of their keys); the
  importing compilation has the same types by C45.
* **C70** backticks: the parser does not look at the text of identifiers and the reader removes the
  backticks from each of them, so both commute with removing them beforehand; the rest as for C40.
* **C71** notations: each rule relates two parse trees; reading related trees gives the same schemas,
  names and warnings, by induction on the derivation, whatever the positions in the trees; the rest as
  for C68. `T?` with annotations has no expansion, since the annotations go to `T` and not to the
  union, and `decimal(p, s)` is expanded only below `p = 2^31`.
* **C72** import directories: a step of the compilation with more directories is the same step unless
  the search fails, by induction on the nesting of imports.
* **C73** repeated imports: processing declarations is the same as processing them without the imports
  of paths that came before, since a path resolves the same within a file and nothing leaves the set of
  imported files; the reader gives the same declarations up to these; the rest as for C71.
* **C74** texts and files: the two entry points differ in the set of imported files only; processing
  declarations with one more file in it is the same if no import resolves to that file, by induction on
  the nesting of imports.  A file that imports itself is the counterexample.
* **C75** layout: writing one level deeper is writing at this level with each line break followed by
  two more blanks (mutual induction on documents); strings and numbers have no line breaks.

## Findings (places where the code does not have the stated property)

Each entry names the theorem that exhibits it.  "Not a theorem" marks observations made while
modelling.

Output
* A type without namespace that is used inside a namespace (possible only with imports of JSON
  files) is written so that an Avro reader resolves it to another name:
  `C02_fails_null_namespace`, `C03_fails_null_namespace_import`,
  `C04_fails_null_namespace_import`, `C06_fails_null_namespace_import`, `C07_fails_null_namespace`.
  Importing a type `X` in no namespace at the end of a protocol in namespace `p` that has a type
  `p.X` replaces the definition of `p.X` within an earlier type: `C65_fails_other_namespace`.
* A type without namespace named like a primitive is read as the primitive:
  `C02_fails_primitive_name`.
* The table of types is keyed by effective namespace, the search by the reference's own, so that
  the wrong type can be written in place: `C04_fails_wrong_type_inlined`.
* Annotations on references to named types are never written: `C23_fails_reference_annotations`.
* Messages of imported `.avpr` files are not flattened: a type defined inside a message is never
  registered, and where it is defined in the output depends on hash order:
  `C26_fails_inline_definitions`.

Registry and defaults
* `register` panics for schemas that are not named types: `C08_reference_panics` (no caller does
  that).
* Defaults of enum and fixed fields accept any string: `C11_enum_symbol_not_checked`,
  `C11_fixed_length_not_checked`.
* Defaults of fields whose type is declared later are not checked at all:
  `C13_forward_reference_unchecked`; positions of recursive types are not checked:
  `C13_recursive_positions_unchecked`.
* A declared type may be called `array`, `map`, ... when quoted: `C09_complex_type_names_accepted`;
  a union of such a type and an array is then rejected: `C15_array_named_type_rejected`.
* `validate_all_references` gives references without span the sort key `("", MAX)`, which sorts
  first although the comment says last, and the span reported for a name used in several messages
  depends on hash order: `C47_unplaced_sort_first`, `C47_fails_hash_order`; the names reported do not
  depend on it: `C10_any_order`.

Texts (assuming ANTLR's longest match)
* `/**/` followed anywhere by `*/` is one doc comment that swallows the code between:
  `C40_empty_comment_swallows`, `C40_empty_comment_alone`.
* A line comment at the end of a file without final newline is reported as unrecognised text:
  `C40_line_comment_at_end`.
* The character U+001A ends the file even inside a string or comment: everything behind it is
  ignored: `C40_substitute_ends_file`.
* `fixed f();` in a protocol is a message whose result type is called `fixed`:
  `C38_fixed_message`.

Literals and comments
* `-0x8000000000000000` and `-01000000000000000000000` are rejected: `C18_min_value_rejected`.
* Sizes with a long suffix are rejected: `C18_u32_suffix_rejected`.
* `\u+041` is decoded, although the lexer never produces it: `C19_plus_sign_accepted`.
* `/** **bold** text */` loses its opening stars: `C31_emphasis_lost`.
* The doc comment of a field declaration is lost when all its variables have their own:
  `C30_field_comment_lost`.

Names
* Names of fields, symbols, parameters and protocols and namespaces of protocols are not checked:
  `a-b`, `A.B` and `1 x` are accepted: `C63_fails_names`.

Resources
* To check a default, even `null` for an optional field, the type of the field is copied with all
  types it mentions in the place of their names, once per mention: with n types, each mentioning
  the one before twice, 2^n nodes are built: `C61_fails_check`.

Output documents
* A decimal given by annotations may have a scale above its precision, or the precision 0; it is
  compiled as a decimal but what is written is not one for Avro: `C60_fails_decimal`.

Reports on JSON documents
* They do not say which member of a union is meant, nor the namespace of a record:
  `C59_fails_place`.

Warnings
* The label of a warning is found by searching its message, which quotes the source: an alias
  `"token recognition error"` is labelled as an unrecognized token: `C58_fails_label`.
* Unrecognised text containing `<EOF>`, `IdentifierToken` and the like is quoted wrongly:
  `C58_fails_message`.
* The position of unrecognised text counts characters of its line as bytes: `C58_fails_where`.

Logical types and annotations
* `logicalType`, `precision`, `scale` are not reserved on logical types and replace the structural
  entries: `C16_logical_type_overridden`.
* An out-of-range or non-integer `scale` annotation disappears: `C17_bad_scale_lost`; a scale above
  the precision is accepted in annotations: `C17_scale_above_precision_accepted`.
* JSON import ignores the base type of a logical type: `C34_fails_base_replaced`,
  `C23_fails_logical_base`.

JSON import
* A name with a dot together with a `namespace` attribute: the attribute wins, Avro ignores it:
  `C42_fails_dotted_name`.
* Invalid decimals are rejected (precision 0) or kept (scale above precision) instead of read as
  bytes; `precision` and `scale` are lost on other logical types: `C42_fails_zero_precision`,
  `C42_fails_large_scale`, `C42_fails_property_lost`.
* Types with illegal or already used names are dropped silently: `C24_fails_illegal`,
  `C24_fails_duplicate`.
* A protocol with `@logicalType("date") string s` changes its type when its output is imported:
  `C45_fails_logical_type`.
* The document of a protocol with mutually recursive types changes each time it is imported by a
  protocol of the same name and written again, with period two: `C69_fails_protocol_document`.
* A document nested deeper than 127 is written but cannot be imported again: `C43_fails_deep`.
* There are no duplicate checks: imported records may have two fields of one name and unions a type
  twice: `C63_fails_imported`.
* `{"type": "Ref"}` and nested type objects are rejected, nested unions are not:
  `C42_fails_type_object`, `C42_fails_nested_object`, `C42_fails_nested_union`.
* A file that imports itself is accepted when it is compiled as a file, and rejected when its text is
  compiled: `C74_fails_self_import`.
* A second import of a file is ignored even if its kind differs and does not fit: `import schema` of an
  IDL file is accepted behind `import idl` of it (example in `Props/Repeat.lean`).
* Of messages with one name, imports nested in an imported protocol beat that protocol's own
  (`C22_messages` covers the compiled protocol, whose own messages win): `C66_fails_nested_message`.
* A type declared after the import of a JSON schema of the same name is rejected, one declared
  before it replaces it silently: `C67_fails_json_first`.
* A default value is not checked against a type that is declared later, so exchanging two
  declarations may turn an accepted file into a rejected one: `C67_fails_unchecked_default`.

Front ends
* After a file that cannot be read, the warnings of the previous compilation are still there:
  `C25_fails_stale`.
* A directory whose later file fails loses the warnings of the earlier ones:
  `C25_fails_directory`.  A file that the reader rejects loses its own: `C25_fails_reader_error`.
* When an imported IDL file cannot be read, the error does not point at the import statement, although
  it does for JSON files and missing files: `C56_fails_unreadable_idl`.
* `idl2schemata` names files by simple name, so types in different namespaces overwrite each
  other: `C33_fails_same_simple_name`.
* The warning about annotations dropped from a union lists them in the order of a `HashMap`, which
  differs from run to run; `WarnsAbout` (C54) therefore leaves the order open.
* Hexadecimal floating-point literals.  Their value is computed as (integer + fraction) * 2^exponent
  in doubles, the fraction digit by digit.  So `0x0p1024` becomes NaN (`C52_fails_zero`) and
  `0x.8p1024`, which is 2^1023, an infinity (`C52_fails_fraction`);
  `0x0.800000000000040001p0` is rounded twice and not to the nearest double
  (`C52_fails_long_fraction`); integers from 2^64 on and exponents outside `i32` are rejected
  (`C52_fails_long_number`, `C52_fails_exponent`), and `0x1p-1074` becomes zero if `powi` inverts
  positive powers (`C52_fails_subnormal`).
* A directory whose name ends in `.avdl` makes the extraction of a directory above it fail:
  `C51_fails_directory_entry`.
* The edit distance sizes its rows by bytes but walks characters, so it is wrong for non-ASCII
  names: `C32_fails_non_ascii`.
* A misspelt `decimal`, `idl`, `true` or `false` gets no suggestion: the list of keywords lacks them
  (`C32_keyword_list`).
* `line_col_to_byte_offset` adds a column counted in characters to a byte offset:
  `C36_fails_multibyte`.
* An undefined name that is written in a message and later in a record is reported at the later
  place, against the comment in the code: `C47_fails_first_place`.
* "type `x` referenced in imported file `p`" always names the first JSON import, whether or not it
  mentions the type: `C47_fails_named_file`.
* The sort key of names without position is `("", usize::MAX)`, which sorts them first and not last
  as the comment says: `C47_unplaced_sort_first`; the later partition hides this (`C47_in_order`).
* `avdl idl a b c` ignores `c` without a message: `C48_fails_surplus`.
* A wrong option gives exit status 2 before the subcommand and 1 (that of a failed compilation) after
  it: `C48_fails_usage_status`.
* `extract_expecting_tokens` cuts the set at the first `}` although it may be in quotes: the report
  meant for a missing closing brace is never used (`C50_fails_close_brace`, for all messages), the
  help loses the brace and everything after it (`C50_fails_help`), and a comma in quotes leaves empty
  entries (`C50_fails_help_comma`).
* With at most five expected tokens, `<EOF>` stays in the message and the unclosed brace is not
  pointed at: `C50_fails_small_set`.
* Braces in comments are counted when looking for the unclosed one: `C50_fails_comment`.
* A string in the source with the text `expecting {` is taken for the parser's words:
  `C50_fails_like_message`.
* A trailing comma in a union is reported as one in an enum: `C50_fails_trailing_comma`; `bitmap<>`
  and `myunion {}` are reported as `map<>` and `union {}`: `C50_fails_name_end`.
* An annotation without value whose name ends like a keyword is reported under a shorter name (`@h` for
  `@hint`): `C50_fails_annotation_name`.

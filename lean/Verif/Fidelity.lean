import Verif.Props.Reimport
import Verif.Props.Floats
import Verif.SyntaxErrors
/-!
# The model on the texts of the project's own tests

These are tests of the model, not properties of the program: each `#guard` runs the whole model (in
the interpreter, no theorem depends on it) on a text of a test in /repo and compares with what the test expects of the program:
whether the text is accepted, how many warnings it gives where the test says so, and the line and
column of the first label where the test has a snapshot (not for syntax errors, whose positions are
not part of the model).  Tests of single functions follow.  They are no part of any claim.
-/

namespace Avdl.Fidelity
open Props

/-- Upper case of the words for orders. -/
@[reducible] def upperCases : CaseTables := ⟨String.toUpper⟩

attribute [local instance] asciiTables upperCases exJsonFloats multipliedPowers literalFloats

/-- What a test expects: a text is accepted, perhaps with a number of warnings, or rejected, perhaps
at a line and column. -/
inductive Expected where
  | accepted (warnings : Option Nat)
  | rejected (at_ : Option (Nat × Nat))

/-- Line and column of a byte, from 1. -/
def place : List Char → Nat → Nat × Nat → Nat × Nat
  | [], _, lc => lc
  | c :: cs, n, (l, k) =>
      if n = 0 then (l, k)
      else place cs (n - c.utf8Size) (if c = '\n' then (l + 1, 1) else (l, k + 1))

/-- Where an error points. -/
def errorSpan : CompileErr → Option Span
  | .read _ e => e.span
  | .importFailed s _ => s
  | .register _ s => s
  | .invalidDefaults _ _ s _ => s
  | .undefined ((_, s) :: _) => s
  | _ => none

/-- The model does what is expected. -/
def meets (e : Expected) (text : String) (r : Except CompileErr CompileOutput) : Bool :=
  match e, r with
  | .accepted w, .ok out => w.all (· == out.warnings.length)
  | .rejected lc, .error e => match e with
    | .timeout => false
    | e => lc.all fun lc => (errorSpan e).any fun s => place text.toList s.offset (1, 1) == lc
  | _, _ => false

/-- A text compiled as by `convert_str` and `extract_str`. -/
def compiled (text : String) : Except CompileErr CompileOutput :=
  (Builder.new.compileStr (exReimportWorld fun _ => none) 30 text "<input>").1

/-- A value written as `json!(...)`. -/
def jsonOf (text : String) : Option Json := parseJsonWithComments text

/-- The test passes. -/
def passes (e : Expected) (text : String) : Bool := meets e text (compiled text)

-- /repo/tests/cli.rs, `test_cli_idl_stdin_to_stdout`
#guard passes (.accepted none)
  "protocol P { record R { int x; } }"

-- /repo/src/compiler.rs, `builder_reuse`
#guard passes (.accepted none)
  "protocol A { }"

-- /repo/src/compiler.rs, `builder_reuse`
#guard passes (.accepted none)
  "protocol B { }"

-- /repo/src/compiler.rs, `convert_str_named_custom_source_name`
#guard passes (.rejected none)
  "protocol { }"

-- /repo/src/compiler.rs, `convert_str_schema_mode`
#guard passes (.accepted none)
  "schema int;"

-- /repo/src/compiler.rs, `convert_str_simple_protocol`
#guard passes (.accepted (some 0))
  "protocol Empty { }"

-- /repo/src/compiler.rs, `convert_str_undefined_type_error`
#guard passes (.rejected (some (4, 28)))
  "\n            @namespace(\"test\")\n            protocol P {\n                record R { MissingType field; }\n            }\n            "

-- /repo/src/compiler.rs, `convert_str_with_record`
#guard passes (.accepted none)
  "\n                @namespace(\"org.example\")\n                protocol Svc {\n                    record User { string name; }\n                }\n                "

-- /repo/src/compiler.rs, `decimal_without_params_explains_syntax`
#guard passes (.rejected (some (4, 28)))
  "\n            @namespace(\"test\")\n            protocol P {\n                record R { decimal value; }\n            }\n            "

-- /repo/src/compiler.rs, `defined_message_types_are_accepted`
#guard passes (.accepted none)
  "\n                @namespace(\"test\")\n                protocol P {\n                    record Request { string query; }\n                    record Response { string answer; }\n                    error ServiceError { string message; }\n                    Response search(Request req) throws ServiceError;\n                }\n                "

-- /repo/src/compiler.rs, `extract_str_simple_protocol`
#guard passes (.accepted none)
  "\n                @namespace(\"test\")\n                protocol P {\n                    record Foo { string name; }\n                    enum Color { RED, GREEN, BLUE }\n                }\n                "

-- /repo/src/compiler.rs, `extract_str_undefined_message_return_type_is_rejected`
#guard passes (.rejected (some (4, 17)))
  "\n            @namespace(\"test\")\n            protocol P {\n                DoesNotExist getUnknown();\n            }\n            "

-- /repo/src/compiler.rs, `extract_str_undefined_type_error`
#guard passes (.rejected (some (4, 28)))
  "\n            @namespace(\"test\")\n            protocol P {\n                record R { MissingType field; }\n            }\n            "

-- /repo/src/compiler.rs, `field_default_invalid_for_enum_reference`
#guard passes (.rejected (some (5, 38)))
  "\n            protocol P {\n                enum Color { RED, GREEN, BLUE }\n                record R {\n                    Color favorite = 42;\n                }\n            }\n            "

-- /repo/src/compiler.rs, `field_default_invalid_for_record_reference`
#guard passes (.rejected (some (5, 36)))
  "\n            protocol P {\n                record Inner { string name; }\n                record Outer {\n                    Inner nested = \"not an object\";\n                }\n            }\n            "

-- /repo/src/compiler.rs, `field_default_multiple_invalid_references`
#guard passes (.rejected (some (5, 35)))
  "\n            protocol P {\n                enum Color { RED, GREEN, BLUE }\n                record R {\n                    Color first = 1;\n                    Color second = 2;\n                }\n            }\n            "

-- /repo/src/compiler.rs, `field_default_valid_for_enum_reference`
#guard passes (.accepted none)
  "\n                protocol P {\n                    enum Color { RED, GREEN, BLUE }\n                    record R {\n                        Color favorite = \"RED\";\n                    }\n                }\n                "

-- /repo/src/compiler.rs, `idl2schemata_drain_warnings_after_error`
#guard passes (.rejected none)
  "\n            @namespace(\"test\")\n            protocol P {\n                record A {\n                    string name;\n                    /** orphaned doc comment */\n                }\n                record B { MissingType field; }\n            }\n            "

-- /repo/src/compiler.rs, `import_resolution_error_has_source_span`
#guard passes (.rejected (some (3, 17)))
  "\n            protocol P {\n                import schema \"nonexistent-file.avsc\";\n            }\n            "

-- /repo/src/compiler.rs, `multiple_undefined_types_reported_together`
#guard passes (.rejected (some (5, 21)))
  "\n            @namespace(\"test\")\n            protocol P {\n                record R {\n                    AlphaType a;\n                    BetaType b;\n                }\n            }\n            "

-- /repo/src/compiler.rs, `record_default_complete_with_all_fields_accepted`
#guard passes (.accepted none)
  "\n            @namespace(\"test\")\n            protocol P {\n                record Inner {\n                    string name;\n                    int value;\n                }\n                record Outer { Inner inner = {\"name\": \"test\", \"value\": 42}; }\n            }\n            "

-- /repo/src/compiler.rs, `record_default_nested_incomplete_rejected`
#guard passes (.rejected (some (6, 43)))
  "\n            @namespace(\"test\")\n            protocol P {\n                record Inner { int x; }\n                record Middle { Inner inner; }\n                record Outer { Middle m = {\"inner\": {}}; }\n            }\n            "

-- /repo/src/compiler.rs, `record_default_nested_validates_inner`
#guard passes (.accepted none)
  "\n            @namespace(\"test\")\n            protocol P {\n                record Inner { int x; }\n                record Middle { Inner inner; }\n                record Outer { Middle m = {\"inner\": {\"x\": 1}}; }\n            }\n            "

-- /repo/src/compiler.rs, `record_default_partial_missing_required_field_rejected`
#guard passes (.rejected (some (8, 46)))
  "\n            @namespace(\"test\")\n            protocol P {\n                record Inner {\n                    string name;\n                    int value;  // required - no default\n                }\n                record Outer { Inner inner = {\"name\": \"partial\"}; }\n            }\n            "

-- /repo/src/compiler.rs, `record_default_partial_with_field_default_allowed`
#guard passes (.accepted none)
  "\n            @namespace(\"test\")\n            protocol P {\n                record Inner {\n                    string name;\n                    int value = 0;  // has default\n                }\n                record Outer { Inner inner = {\"name\": \"test\"}; }\n            }\n            "

-- /repo/src/compiler.rs, `record_default_wrong_field_type_rejected`
#guard passes (.rejected (some (5, 46)))
  "\n            @namespace(\"test\")\n            protocol P {\n                record Inner { int count; }\n                record Outer { Inner inner = {\"count\": \"not_an_int\"}; }\n            }\n            "

-- /repo/src/compiler.rs, `undefined_message_error_type_is_rejected`
#guard passes (.rejected (some (4, 39)))
  "\n            @namespace(\"test\")\n            protocol P {\n                void doThing() throws DoesNotExist;\n            }\n            "

-- /repo/src/compiler.rs, `undefined_message_param_type_is_rejected`
#guard passes (.rejected (some (4, 30)))
  "\n            @namespace(\"test\")\n            protocol P {\n                void process(DoesNotExist arg);\n            }\n            "

-- /repo/src/compiler.rs, `undefined_message_return_type_is_rejected`
#guard passes (.rejected (some (4, 17)))
  "\n            @namespace(\"test\")\n            protocol P {\n                DoesNotExist getUnknown();\n            }\n            "

-- /repo/src/compiler.rs, `undefined_type_no_suggestion_for_unrelated`
#guard passes (.rejected (some (4, 28)))
  "\n            @namespace(\"test\")\n            protocol P {\n                record R { CompletelyUnrelated field; }\n            }\n            "

-- /repo/src/compiler.rs, `undefined_type_suggests_capitalized_primitive`
#guard passes (.rejected (some (4, 28)))
  "\n            @namespace(\"test\")\n            protocol P {\n                record R { String name; }\n            }\n            "

-- /repo/src/compiler.rs, `undefined_type_suggests_primitive`
#guard passes (.rejected (some (4, 28)))
  "\n            @namespace(\"test\")\n            protocol P {\n                record R { stiring name; }\n            }\n            "

-- /repo/src/compiler.rs, `undefined_type_suggests_registered_type`
#guard passes (.rejected (some (5, 28)))
  "\n            @namespace(\"test\")\n            protocol P {\n                record UserProfile { string name; }\n                record R { UserProfle author; }\n            }\n            "

-- /repo/src/compiler.rs, `void_as_field_type_explains_usage`
#guard passes (.rejected (some (4, 28)))
  "\n            @namespace(\"test\")\n            protocol P {\n                record R { void nothing; }\n            }\n            "

-- /repo/tests/error_reporting.rs, `test_error_annotated_type_reference`
#guard passes (.rejected (some (6, 17)))
  "\n        @namespace(\"test\")\n        protocol P {\n            fixed MD5(16);\n            record R {\n                @foo(\"bar\") MD5 hash;\n            }\n        }\n    "

-- /repo/tests/error_reporting.rs, `test_error_duplicate_enum_symbol`
#guard passes (.rejected (some (4, 44)))
  "\n        @namespace(\"test\")\n        protocol P {\n            enum Color { RED, GREEN, BLUE, RED }\n        }\n    "

-- /repo/tests/error_reporting.rs, `test_error_duplicate_field_name`
#guard passes (.rejected (some (6, 21)))
  "\n        @namespace(\"test\")\n        protocol P {\n            record R {\n                string name;\n                int name;\n            }\n        }\n    "

-- /repo/tests/error_reporting.rs, `test_error_duplicate_message_param`
#guard passes (.rejected (some (5, 30)))
  "\n        @namespace(\"test\")\n        protocol P {\n            record Msg { string text; }\n            void test(Msg x, Msg x);\n        }\n    "

-- /repo/tests/error_reporting.rs, `test_error_duplicate_type_name`
#guard passes (.rejected (some (5, 13)))
  "\n        @namespace(\"org.test\")\n        protocol P {\n            record Dup { string name; }\n            record Dup { int id; }\n        }\n    "

-- /repo/tests/error_reporting.rs, `test_error_extra_closing_brace`
#guard passes (.rejected none)
  "protocol P { record R { int x; } } }"

-- /repo/tests/error_reporting.rs, `test_error_import_nonexistent_file`
#guard passes (.rejected (some (4, 13)))
  "\n        @namespace(\"test\")\n        protocol P {\n            import schema \"does_not_exist.avsc\";\n            record R { string name; }\n        }\n    "

-- /repo/tests/error_reporting.rs, `test_error_invalid_aliases_type`
#guard passes (.rejected (some (4, 13)))
  "\n        @namespace(\"test\")\n        protocol P {\n            @aliases(123) record R { string name; }\n        }\n    "

-- /repo/tests/error_reporting.rs, `test_error_invalid_order_value`
#guard passes (.rejected (some (5, 24)))
  "\n        @namespace(\"test\")\n        protocol P {\n            record R {\n                string @order(\"BAD\") x;\n            }\n        }\n    "

-- /repo/tests/error_reporting.rs, `test_error_invalid_token_in_type_position`
#guard passes (.rejected none)
  "protocol P { record R { 123 x; } }"

-- /repo/tests/error_reporting.rs, `test_error_malformed_fixed_size`
#guard passes (.rejected none)
  "protocol P { fixed F(not_a_number); }"

-- /repo/tests/error_reporting.rs, `test_error_malformed_union`
#guard passes (.rejected none)
  "protocol P { record R { union { int, , string } x; } }"

-- /repo/tests/error_reporting.rs, `test_error_missing_enum_commas`
#guard passes (.rejected none)
  "protocol P { enum E { A B C } }"

-- /repo/tests/error_reporting.rs, `test_error_missing_field_separator`
#guard passes (.rejected none)
  "protocol P { record R { int x int y; } }"

-- /repo/tests/error_reporting.rs, `test_error_missing_field_type`
#guard passes (.rejected none)
  "protocol P { record R { x; } }"

-- /repo/tests/error_reporting.rs, `test_error_missing_fixed_size`
#guard passes (.rejected none)
  "protocol P { fixed F; }"

-- /repo/tests/error_reporting.rs, `test_error_missing_record_name`
#guard passes (.rejected none)
  "protocol P { record { int x; } }"

-- /repo/tests/error_reporting.rs, `test_error_missing_semicolon`
#guard passes (.rejected none)
  "protocol P { record R { int x } }"

-- /repo/tests/error_reporting.rs, `test_error_misspelled_keyword`
#guard passes (.rejected none)
  "protocl P { record R { int x; } }"

-- /repo/tests/error_reporting.rs, `test_error_nested_union`
#guard passes (.rejected (some (5, 31)))
  "\n        @namespace(\"test\")\n        protocol P {\n            record Bad {\n                union { null, union { string, int } } nested;\n            }\n        }\n    "

-- /repo/tests/error_reporting.rs, `test_error_oneway_nonvoid`
#guard passes (.rejected (some (5, 13)))
  "\n        @namespace(\"test\")\n        protocol P {\n            record Msg { string text; }\n            Msg send(Msg m) oneway;\n        }\n    "

-- /repo/tests/error_reporting.rs, `test_error_reserved_type_name`
#guard passes (.rejected (some (1, 8)))
  "record `int` { string value; }"

-- /repo/tests/error_reporting.rs, `test_error_semicolon_replaced_with_comma`
#guard passes (.rejected none)
  "protocol P { record R { int x, } }"

-- /repo/tests/error_reporting.rs, `test_error_semicolons_in_enum`
#guard passes (.rejected none)
  "protocol P { enum E { A; B; C } }"

-- /repo/tests/error_reporting.rs, `test_error_unclosed_brace`
#guard passes (.rejected none)
  "protocol P { record R { int x; }"

-- /repo/tests/error_reporting.rs, `test_error_unclosed_paren`
#guard passes (.rejected none)
  "protocol P { fixed F(16; }"

-- /repo/tests/error_reporting.rs, `test_error_undefined_type`
#guard passes (.rejected (some (5, 17)))
  "\n        @namespace(\"test\")\n        protocol P {\n            record R {\n                Nonexistent x;\n            }\n        }\n    "

-- /repo/tests/error_reporting.rs, `test_warning_multiple_out_of_place_doc_comments`
#guard passes (.accepted (some 7))
  "\n        /** USED protocol doc */\n        @namespace(\"test\")\n        /** ORPHAN between namespace and protocol */\n        protocol P {\n            /** USED record doc */\n            record R {\n                /** USED field-decl doc */\n                string name;\n\n                int /** USED in-field-decl doc */ age;\n\n                boolean active;\n                /** ORPHAN trailing in record body */\n            }\n\n            /** USED error doc */\n            error RpcError {\n                /** USED error field doc */\n                string message;\n                /** ORPHAN trailing in error body */\n            }\n\n            /** USED fixed doc */\n            fixed MD5(16);\n\n            /** USED enum doc */\n            enum Status {\n                /** ORPHAN enum symbol doc (!) */\n                PENDING,\n                DONE\n                /** ORPHAN trailing in enum body */\n            }\n\n            /** USED message doc */\n            void ping(/** USED param doc */ R arg) throws RpcError;\n\n            /** ORPHAN trailing in protocol body */\n        }\n        /** ORPHAN after protocol closing brace */\n    "

-- /repo/tests/error_reporting.rs, `test_warning_out_of_place_doc_comment`
#guard passes (.accepted none)
  "\n        @namespace(\"test\")\n        protocol P {\n            record R {\n                string name;\n                /** This doc comment is orphaned — nothing follows it. */\n            }\n        }\n    "

-- /repo/tests/integration.rs, `test_builtin_logical_type_with_custom_annotation`
#guard passes (.accepted none)
  "\n        @namespace(\"test\")\n        protocol AnnotatedBuiltin {\n            record Annotated {\n                @version(\"2\") date versioned_date;\n                @source(\"external\") timestamp_ms annotated_ts;\n            }\n        }\n    "

-- /repo/tests/integration.rs, `test_builtin_logical_types_propagate_to_json`
#guard passes (.accepted none)
  "\n        @namespace(\"test\")\n        protocol LogicalTypes {\n            record Event {\n                date created_date;\n                time_ms created_time;\n                timestamp_ms created_timestamp;\n                local_timestamp_ms local_created;\n                uuid event_id;\n                decimal(10, 2) amount;\n            }\n        }\n    "

-- /repo/tests/integration.rs, `test_cross_namespace_unqualified_reference_is_unresolved`
#guard passes (.rejected (some (6, 33)))
  "\n        @namespace(\"org.example\")\n        protocol P {\n            @namespace(\"org.other\")\n            record OtherRecord { string name; }\n            record MainRecord { OtherRecord other; }\n        }\n    "

-- /repo/tests/integration.rs, `test_custom_logical_type_annotation_propagates_to_json`
#guard passes (.accepted none)
  "\n        @namespace(\"test\")\n        protocol CustomLogical {\n            record Measurements {\n                @logicalType(\"timestamp-micros\") long precise_time;\n                @logicalType(\"custom-type\") bytes payload;\n                @logicalType(\"temperature-celsius\") double temp;\n            }\n        }\n    "

-- /repo/tests/integration.rs, `test_custom_logical_type_with_additional_annotations`
#guard passes (.accepted none)
  "\n        @namespace(\"test\")\n        protocol AnnotatedLogical {\n            record Payment {\n                @logicalType(\"decimal\") @precision(6) @scale(2) bytes allowance;\n                @logicalType(\"fixed-size-string\") @minLength(1) @maxLength(50) string bounded;\n            }\n        }\n    "

-- /repo/tests/integration.rs, `test_dotted_identifier_namespace_priority`
#guard passes (.accepted none)
  "\n        @namespace(\"foo\")\n        protocol P {\n            @namespace(\"bar\") record com.example.MyRecord {\n                int x;\n            }\n        }\n    "

-- /repo/tests/integration.rs, `test_duplicate_enum_symbol_rejected`
#guard passes (.rejected (some (4, 44)))
  "\n        @namespace(\"test\")\n        protocol P {\n            enum Color { RED, GREEN, BLUE, RED }\n        }\n    "

-- /repo/tests/integration.rs, `test_duplicate_field_name_rejected`
#guard passes (.rejected (some (6, 21)))
  "\n        @namespace(\"test\")\n        protocol P {\n            record R {\n                string name;\n                int name;\n            }\n        }\n    "

-- /repo/tests/integration.rs, `test_duplicate_type_definition`
#guard passes (.rejected none)
  "\n        @namespace(\"org.test\")\n        protocol DupTest {\n            record Dup { string name; }\n            record Dup { int id; }\n        }\n    "

-- /repo/tests/integration.rs, `test_empty_namespace_annotation_emits_namespace_key`
#guard passes (.accepted none)
  "\n        @namespace(\"org.example\")\n        protocol P {\n            @namespace(\"\")\n            record NoNamespace { string name; }\n        }\n    "

-- /repo/tests/integration.rs, `test_idl2schemata_unresolved_type_detected`
#guard passes (.rejected (some (5, 17)))
  "\n        @namespace(\"test\")\n        protocol P {\n            record R {\n                MissingType field;\n            }\n        }\n    "

-- /repo/tests/integration.rs, `test_import_nonexistent_file`
#guard passes (.rejected none)
  "\n        @namespace(\"org.test\")\n        protocol ImportTest {\n            import schema \"does_not_exist.avsc\";\n            record Rec { string name; }\n        }\n    "

-- /repo/tests/integration.rs, `test_multiple_throws_error_types`
#guard passes (.accepted none)
  "\n        @namespace(\"test\")\n        protocol MultiThrows {\n            error Err1 { string message; }\n            error Err2 { string reason; }\n            void dangerous() throws Err1, Err2;\n        }\n    "

-- /repo/tests/integration.rs, `test_nested_union_rejected`
#guard passes (.rejected (some (5, 31)))
  "\n        @namespace(\"org.test\")\n        protocol NestedUnionTest {\n            record Bad {\n                union { null, union { string, int } } nested;\n            }\n        }\n    "

-- /repo/tests/integration.rs, `test_oneway_with_throws_is_rejected`
#guard passes (.rejected none)
  "\n        @namespace(\"test\")\n        protocol P {\n            error E { string msg; }\n            void fire(string s) oneway throws E;\n        }\n    "

-- /repo/tests/integration.rs, `test_reserved_type_name_rejected`
#guard passes (.rejected (some (1, 8)))
  "record `int` { string value; }"

-- /repo/tests/integration.rs, `test_schema_mode_array`
#guard passes (.accepted none)
  "schema array<string>;"

-- /repo/tests/integration.rs, `test_schema_mode_custom_logical_type_annotation`
#guard passes (.accepted none)
  "schema @logicalType(\"date\") int;"

-- /repo/tests/integration.rs, `test_schema_mode_logical_type_date`
#guard passes (.accepted none)
  "schema date;"

-- /repo/tests/integration.rs, `test_schema_mode_logical_type_decimal`
#guard passes (.accepted none)
  "schema decimal(10, 2);"

-- /repo/tests/integration.rs, `test_schema_mode_logical_type_time_ms`
#guard passes (.accepted none)
  "schema time_ms;"

-- /repo/tests/integration.rs, `test_schema_mode_logical_type_timestamp_ms`
#guard passes (.accepted none)
  "schema timestamp_ms;"

-- /repo/tests/integration.rs, `test_schema_mode_logical_type_uuid`
#guard passes (.accepted none)
  "schema uuid;"

-- /repo/tests/integration.rs, `test_schema_mode_map`
#guard passes (.accepted none)
  "schema map<string>;"

-- /repo/tests/integration.rs, `test_schema_mode_map_with_complex_values`
#guard passes (.accepted none)
  "schema map<array<int>>;"

-- /repo/tests/integration.rs, `test_schema_mode_multiple_named_types_with_schema_ref`
#guard passes (.accepted none)
  "\n        namespace org.test;\n        schema Item;\n        enum Color { RED, GREEN, BLUE }\n        record Item {\n            string name;\n            Color color;\n        }\n        "

-- /repo/tests/integration.rs, `test_schema_mode_named_type_with_namespace`
#guard passes (.accepted none)
  "\n        namespace org.test;\n        schema Foo;\n        @namespace(\"org.test\")\n        record Foo { string name; }\n        "

-- /repo/tests/integration.rs, `test_schema_mode_namespace_directive`
#guard passes (.accepted none)
  "\n        namespace org.example;\n        schema Bar;\n        record Bar { int value; }\n        "

-- /repo/tests/integration.rs, `test_schema_mode_nullable_int`
#guard passes (.accepted none)
  "schema int?;"

-- /repo/tests/integration.rs, `test_schema_mode_nullable_shorthand`
#guard passes (.accepted none)
  "schema string?;"

-- /repo/tests/integration.rs, `test_schema_mode_primitive_boolean`
#guard passes (.accepted none)
  "schema boolean;"

-- /repo/tests/integration.rs, `test_schema_mode_primitive_bytes`
#guard passes (.accepted none)
  "schema bytes;"

-- /repo/tests/integration.rs, `test_schema_mode_primitive_double`
#guard passes (.accepted none)
  "schema double;"

-- /repo/tests/integration.rs, `test_schema_mode_primitive_float`
#guard passes (.accepted none)
  "schema float;"

-- /repo/tests/integration.rs, `test_schema_mode_primitive_int`
#guard passes (.accepted none)
  "schema int;"

-- /repo/tests/integration.rs, `test_schema_mode_primitive_long`
#guard passes (.accepted none)
  "schema long;"

-- /repo/tests/integration.rs, `test_schema_mode_primitive_null`
#guard passes (.accepted none)
  "schema null;"

-- /repo/tests/integration.rs, `test_schema_mode_primitive_string`
#guard passes (.accepted none)
  "schema string;"

-- /repo/tests/integration.rs, `test_schema_mode_union`
#guard passes (.accepted none)
  "schema union { null, string };"

-- /repo/tests/integration.rs, `test_schema_mode_union_multiple_types`
#guard passes (.accepted none)
  "schema union { null, string, int, long };"

-- /repo/src/reader.rs, `alias_with_dash_produces_warning`
#guard passes (.accepted (some 1))
  "\n            protocol P {\n                @aliases([\"my-alias\"])\n                record Foo { string name; }\n            }\n        "

-- /repo/src/reader.rs, `alias_with_leading_digit_produces_warning`
#guard passes (.accepted (some 1))
  "\n            protocol P {\n                @aliases([\"123bad\"])\n                record Foo { string name; }\n            }\n        "

-- /repo/src/reader.rs, `annotation_on_message_with_named_return_type_is_rejected`
#guard passes (.rejected (some (5, 17)))
  "\n            @namespace(\"test\")\n            protocol P {\n                record Foo { string name; }\n                @prop(\"x\") Foo getFoo(string id);\n            }\n        "

-- /repo/src/reader.rs, `annotation_on_message_with_void_return_is_accepted`
#guard passes (.accepted none)
  "\n            @namespace(\"test\")\n            protocol P {\n                record Foo { string name; }\n                @prop(\"x\") void doThing(Foo input);\n            }\n        "

-- /repo/src/reader.rs, `annotation_on_primitive_type_is_accepted`
#guard passes (.accepted none)
  "\n            @namespace(\"test\")\n            protocol P {\n                record R {\n                    @foo(\"bar\") string name;\n                }\n            }\n        "

-- /repo/src/reader.rs, `annotation_on_type_reference_is_rejected`
#guard passes (.rejected (some (6, 21)))
  "\n            @namespace(\"test\")\n            protocol P {\n                fixed MD5(16);\n                record R {\n                    @foo(\"bar\") MD5 hash = \"0000000000000000\";\n                }\n            }\n        "

-- /repo/src/reader.rs, `annotations_on_non_nullable_union_produce_warning`
#guard passes (.accepted (some 1))
  "protocol P {\n    record R {\n        @deprecated(\"yes\") union { null, string } field;\n    }\n}"

-- /repo/src/reader.rs, `annotations_on_nullable_union_no_warning`
#guard passes (.accepted (some 0))
  "protocol P {\n    record R {\n        @order(\"ignore\") string? field;\n    }\n}"

-- /repo/src/reader.rs, `custom_annotation_on_protocol_is_accepted`
#guard passes (.accepted none)
  "\n            @namespace(\"test\")\n            @myCustomProp(\"hello\")\n            protocol P {\n                record R { string name; }\n            }\n        "

-- /repo/src/reader.rs, `decimal_precision_overflow_is_not_promoted`
#guard passes (.accepted none)
  "\n            protocol P {\n                record R {\n                    @logicalType(\"decimal\") @precision(3000000000) @scale(0) bytes field1;\n                }\n            }\n        "

-- /repo/src/reader.rs, `decimal_scale_equals_precision_accepted`
#guard passes (.accepted none)
  "protocol Test { record Foo { decimal(5, 5) value; } }"

-- /repo/src/reader.rs, `decimal_scale_exceeds_precision_rejected`
#guard passes (.rejected none)
  "protocol Test { record Foo { decimal(5, 10) value; } }"

-- /repo/src/reader.rs, `decimal_valid_precision_and_scale_accepted`
#guard passes (.accepted none)
  "protocol Test { record Foo { decimal(10, 2) value; } }"

-- /repo/src/reader.rs, `decimal_zero_precision_rejected`
#guard passes (.rejected none)
  "protocol Test { record Foo { decimal(0) value; } }"

-- /repo/src/reader.rs, `default_annotated_long_int_valid`
#guard passes (.accepted none)
  "protocol P { record R { @foo.bar(\"baz\") long l = 0; } }"

-- /repo/src/reader.rs, `default_annotation_on_enum_is_rejected`
#guard passes (.rejected (some (4, 17)))
  "\n            @namespace(\"test\")\n            protocol P {\n                @default(\"A\") enum E { A, B, C }\n            }\n        "

-- /repo/src/reader.rs, `default_annotation_on_record_is_not_reserved`
#guard passes (.accepted none)
  "\n            @namespace(\"test\")\n            protocol P {\n                @default(\"x\") record R { string name; }\n            }\n        "

-- /repo/src/reader.rs, `default_array_empty_valid`
#guard passes (.accepted none)
  "protocol P { record R { array<int> nums = []; } }"

-- /repo/src/reader.rs, `default_boolean_int_is_rejected`
#guard passes (.rejected none)
  "protocol P { record R { boolean flag = 42; } }"

-- /repo/src/reader.rs, `default_boolean_valid`
#guard passes (.accepted none)
  "protocol P { record R { boolean flag = true; } }"

-- /repo/src/reader.rs, `default_bytes_int_is_rejected`
#guard passes (.rejected none)
  "protocol P { record R { bytes data = 42; } }"

-- /repo/src/reader.rs, `default_double_nan_valid`
#guard passes (.accepted none)
  "protocol P { record R { double value = NaN; } }"

-- /repo/src/reader.rs, `default_double_valid`
#guard passes (.accepted none)
  "protocol P { record R { double value = 3.25; } }"

-- /repo/src/reader.rs, `default_enum_string_valid`
#guard passes (.accepted none)
  "\n            protocol P {\n                enum Color { RED, GREEN, BLUE }\n                record R { Color c = \"RED\"; }\n            }\n        "

-- /repo/src/reader.rs, `default_float_infinity_valid`
#guard passes (.accepted none)
  "protocol P { record R { float value = -Infinity; } }"

-- /repo/src/reader.rs, `default_forward_reference_skips_validation`
#guard passes (.accepted none)
  "\n            protocol P {\n                record R { SomeEnum e = \"VALUE\"; }\n                enum SomeEnum { VALUE }\n            }\n        "

-- /repo/src/reader.rs, `default_int_float_is_rejected`
#guard passes (.rejected none)
  "protocol P { record R { int count = 3.25; } }"

-- /repo/src/reader.rs, `default_int_max_boundary_is_accepted`
#guard passes (.accepted none)
  "protocol P { record R { int count = 2147483647; } }"

-- /repo/src/reader.rs, `default_int_min_boundary_is_accepted`
#guard passes (.accepted none)
  "protocol P { record R { int count = -2147483648; } }"

-- /repo/src/reader.rs, `default_int_negative_overflow_is_rejected`
#guard passes (.rejected none)
  "protocol P { record R { int count = -2147483649; } }"

-- /repo/src/reader.rs, `default_int_null_is_rejected`
#guard passes (.rejected none)
  "protocol P { record R { int count = null; } }"

-- /repo/src/reader.rs, `default_int_object_is_rejected`
#guard passes (.rejected none)
  "protocol P { record R { int count = {\"key\": \"value\"}; } }"

-- /repo/src/reader.rs, `default_int_overflow_is_rejected`
#guard passes (.rejected (some (1, 37)))
  "protocol P { record R { int count = 9999999999; } }"

-- /repo/src/reader.rs, `default_int_string_is_rejected`
#guard passes (.rejected (some (1, 37)))
  "protocol P { record R { int count = \"hello\"; } }"

-- /repo/src/reader.rs, `default_int_valid`
#guard passes (.accepted none)
  "protocol P { record R { int count = 42; } }"

-- /repo/src/reader.rs, `default_logical_date_int_valid`
#guard passes (.accepted none)
  "protocol P { record R { date d = 0; } }"

-- /repo/src/reader.rs, `default_long_accepts_value_above_i32_max`
#guard passes (.accepted none)
  "protocol P { record R { long count = 9999999999; } }"

-- /repo/src/reader.rs, `default_map_empty_valid`
#guard passes (.accepted none)
  "protocol P { record R { map<string> m = {}; } }"

-- /repo/src/reader.rs, `default_message_param_validated`
#guard passes (.rejected none)
  "protocol P { int add(int arg1, int arg2 = \"bad\"); }"

-- /repo/src/reader.rs, `default_nullable_non_null_valid`
#guard passes (.accepted none)
  "protocol P { record R { string? name = \"hello\"; } }"

-- /repo/src/reader.rs, `default_nullable_null_valid`
#guard passes (.accepted none)
  "protocol P { record R { string? name = null; } }"

-- /repo/src/reader.rs, `default_record_object_valid`
#guard passes (.accepted none)
  "\n            protocol P {\n                record Inner { string name; }\n                record Outer { Inner inner = {\"name\": \"test\"}; }\n            }\n        "

-- /repo/src/reader.rs, `default_string_array_is_rejected`
#guard passes (.rejected none)
  "protocol P { record R { string name = [1, 2, 3]; } }"

-- /repo/src/reader.rs, `default_string_int_is_rejected`
#guard passes (.rejected none)
  "protocol P { record R { string name = 42; } }"

-- /repo/src/reader.rs, `default_string_valid`
#guard passes (.accepted none)
  "protocol P { record R { string name = \"hello\"; } }"

-- /repo/src/reader.rs, `default_union_non_first_branch_valid`
#guard passes (.accepted none)
  "\n            protocol P {\n                record R {\n                    union { null, string } x = \"hello\";\n                    union { null, int } y = 42;\n                }\n            }\n        "

-- /repo/src/reader.rs, `default_union_null_first_valid`
#guard passes (.accepted none)
  "\n            protocol P {\n                record R { union { null, string } field = null; }\n            }\n        "

-- /repo/src/reader.rs, `different_named_types_in_union_is_accepted`
#guard passes (.accepted none)
  "\n            protocol Test {\n                record Bar { string name; }\n                record Baz { int value; }\n                record Foo {\n                    union { null, Bar, Baz } field1;\n                }\n            }\n        "

-- /repo/src/reader.rs, `doc_annotation_on_field_variable_is_rejected`
#guard passes (.rejected (some (4, 35)))
  "\n            @namespace(\"test\")\n            protocol P {\n                record R { string @doc(\"field doc\") name; }\n            }\n        "

-- /repo/src/reader.rs, `doc_annotation_on_message_is_rejected`
#guard passes (.rejected (some (4, 17)))
  "\n            @namespace(\"test\")\n            protocol P {\n                @doc(\"message doc\") void ping();\n            }\n        "

-- /repo/src/reader.rs, `doc_annotation_on_protocol_is_rejected`
#guard passes (.rejected (some (3, 13)))
  "\n            @namespace(\"test\")\n            @doc(\"Protocol doc via annotation\")\n            protocol P {\n                record R { string name; }\n            }\n        "

-- /repo/src/reader.rs, `doc_annotation_on_record_is_rejected`
#guard passes (.rejected (some (4, 17)))
  "\n            @namespace(\"test\")\n            protocol P {\n                @doc(\"Record doc\") record R { string name; }\n            }\n        "

-- /repo/src/reader.rs, `duplicate_named_type_in_union_is_rejected`
#guard passes (.rejected (some (5, 40)))
  "\n            protocol Test {\n                record Bar { string name; }\n                record Foo {\n                    union { null, Bar, Bar } field1;\n                }\n            }\n        "

-- /repo/src/reader.rs, `duplicate_namespace_uses_last_value`
#guard passes (.accepted none)
  "\n            @namespace(\"test.edge\")\n            protocol P {\n                @namespace(\"ns1\")\n                @namespace(\"ns2\")\n                record DualNs { string name; }\n            }\n        "

-- /repo/src/reader.rs, `duplicate_null_in_union_is_rejected`
#guard passes (.rejected (some (4, 43)))
  "\n            protocol Test {\n                record Foo {\n                    union { null, string, null } field1;\n                }\n            }\n        "

-- /repo/src/reader.rs, `duplicate_string_in_union_is_rejected`
#guard passes (.rejected (some (4, 42)))
  "\n            protocol Test {\n                record Foo {\n                    union { string, int, string } field1;\n                }\n            }\n        "

-- /repo/src/reader.rs, `enum_default_in_symbols_is_accepted`
#guard passes (.accepted none)
  "\n            protocol P {\n                enum E { A, B, C } = B;\n            }\n        "

-- /repo/src/reader.rs, `enum_default_not_in_symbols_is_rejected`
#guard passes (.rejected (some (3, 38)))
  "\n            protocol P {\n                enum E { A, B, C } = NONEXISTENT;\n            }\n        "

-- /repo/src/reader.rs, `lexer_error_produces_warning`
#guard passes (.accepted (some 1))
  "protocol Test { record Foo { string\x01 name; } }"

-- /repo/src/reader.rs, `logicaltype_annotation_date_promoted`
#guard passes (.accepted none)
  "\n            @namespace(\"test\")\n            protocol P {\n                record R { @logicalType(\"date\") int myDate; }\n            }\n        "

-- /repo/src/reader.rs, `logicaltype_annotation_decimal_default_scale`
#guard passes (.accepted none)
  "\n            @namespace(\"test\")\n            protocol P {\n                record R {\n                    @logicalType(\"decimal\") @precision(5) bytes myDec;\n                }\n            }\n        "

-- /repo/src/reader.rs, `logicaltype_annotation_decimal_missing_precision_not_promoted`
#guard passes (.accepted none)
  "\n            @namespace(\"test\")\n            protocol P {\n                record R {\n                    @logicalType(\"decimal\") bytes myDec;\n                }\n            }\n        "

-- /repo/src/reader.rs, `logicaltype_annotation_decimal_promoted`
#guard passes (.accepted none)
  "\n            @namespace(\"test\")\n            protocol P {\n                record R {\n                    @logicalType(\"decimal\") @precision(10) @scale(2) bytes myDec;\n                }\n            }\n        "

-- /repo/src/reader.rs, `logicaltype_annotation_local_timestamp_millis_promoted`
#guard passes (.accepted none)
  "\n            @namespace(\"test\")\n            protocol P {\n                record R { @logicalType(\"local-timestamp-millis\") long myLts; }\n            }\n        "

-- /repo/src/reader.rs, `logicaltype_annotation_preserves_extra_properties`
#guard passes (.accepted none)
  "\n            @namespace(\"test\")\n            protocol P {\n                record R { @logicalType(\"date\") @custom(\"extra\") int myDate; }\n            }\n        "

-- /repo/src/reader.rs, `logicaltype_annotation_time_millis_promoted`
#guard passes (.accepted none)
  "\n            @namespace(\"test\")\n            protocol P {\n                record R { @logicalType(\"time-millis\") int myTime; }\n            }\n        "

-- /repo/src/reader.rs, `logicaltype_annotation_timestamp_millis_promoted`
#guard passes (.accepted none)
  "\n            @namespace(\"test\")\n            protocol P {\n                record R { @logicalType(\"timestamp-millis\") long myTs; }\n            }\n        "

-- /repo/src/reader.rs, `logicaltype_annotation_unknown_type_not_promoted`
#guard passes (.accepted none)
  "\n            @namespace(\"test\")\n            protocol P {\n                record R { @logicalType(\"custom-type\") int myField; }\n            }\n        "

-- /repo/src/reader.rs, `logicaltype_annotation_uuid_promoted`
#guard passes (.accepted none)
  "\n            @namespace(\"test\")\n            protocol P {\n                record R { @logicalType(\"uuid\") string myUuid; }\n            }\n        "

-- /repo/src/reader.rs, `logicaltype_annotation_wrong_base_type_not_promoted`
#guard passes (.accepted none)
  "\n            @namespace(\"test\")\n            protocol P {\n                record R { @logicalType(\"date\") long wrongBase; }\n            }\n        "

-- /repo/src/reader.rs, `logicaltype_date_on_fixed_silently_accepted`
#guard passes (.accepted none)
  "\n            @namespace(\"test\")\n            protocol P {\n                @logicalType(\"date\") fixed BadDate(4);\n            }\n        "

-- /repo/src/reader.rs, `logicaltype_decimal_on_fixed_is_valid`
#guard passes (.accepted none)
  "\n            @namespace(\"test\")\n            protocol P {\n                @logicalType(\"decimal\") @precision(10) @scale(2) fixed DecimalFixed(8);\n            }\n        "

-- /repo/src/reader.rs, `logicaltype_duration_on_fixed_12_is_valid`
#guard passes (.accepted none)
  "\n            @namespace(\"test\")\n            protocol P {\n                @logicalType(\"duration\") fixed Duration(12);\n            }\n        "

-- /repo/src/reader.rs, `logicaltype_duration_on_fixed_12_matches_java_output`
#guard passes (.accepted none)
  "\n            @namespace(\"test\")\n            protocol P {\n                @logicalType(\"duration\") fixed Duration(12);\n            }\n        "

-- /repo/src/reader.rs, `logicaltype_duration_on_wrong_size_fixed_silently_accepted`
#guard passes (.accepted none)
  "\n            @namespace(\"test\")\n            protocol P {\n                @logicalType(\"duration\") fixed BadDuration(8);\n            }\n        "

-- /repo/src/reader.rs, `missing_semicolon_is_rejected`
#guard passes (.rejected none)
  "\n            @namespace(\"test\")\n            protocol P {\n                record R { string name }\n            }\n        "

-- /repo/src/reader.rs, `multiple_throws_errors_parsed`
#guard passes (.accepted none)
  "\n            @namespace(\"test\")\n            protocol P {\n                error Err1 { string message; }\n                error Err2 { string reason; }\n                void dangerous() throws Err1, Err2;\n            }\n        "

-- /repo/src/reader.rs, `nullable_null_in_array_rejected`
#guard passes (.rejected none)
  "protocol Test { record Foo { array<null?> values; } }"

-- /repo/src/reader.rs, `nullable_null_rejected`
#guard passes (.rejected none)
  "protocol Test { record Foo { null? value; } }"

-- /repo/src/reader.rs, `oneway_nonvoid_return_is_rejected`
#guard passes (.rejected (some (5, 17)))
  "\n            @namespace(\"test\")\n            protocol OneWayTest {\n                record Msg { string text; }\n                Msg send(Msg m) oneway;\n            }\n        "

-- /repo/src/reader.rs, `oneway_void_return_is_accepted`
#guard passes (.accepted none)
  "\n            @namespace(\"test\")\n            protocol OneWayTest {\n                record Msg { string text; }\n                void send(Msg m) oneway;\n            }\n        "

-- /repo/src/reader.rs, `oneway_with_throws_is_rejected`
#guard passes (.rejected none)
  "\n            @namespace(\"test\")\n            protocol P {\n                error E { string msg; }\n                void fire(string s) oneway throws E;\n            }\n        "

-- /repo/src/reader.rs, `parse_error_annotation_missing_parens_on_field`
#guard passes (.rejected none)
  "protocol Test { record Foo { @deprecated string name; } }"

-- /repo/src/reader.rs, `parse_error_array_empty_type_parameter`
#guard passes (.rejected none)
  "protocol Test {\n  record Foo {\n    array<> items;\n  }\n}"

-- /repo/src/reader.rs, `parse_error_bare_annotation_before_protocol`
#guard passes (.rejected none)
  "@beta\nprotocol Test { record Foo { string name; } }"

-- /repo/src/reader.rs, `parse_error_bare_at_sign_before_keyword`
#guard passes (.rejected none)
  "protocol Test {\n  @ record Foo {\n    string name;\n  }\n}"

-- /repo/src/reader.rs, `parse_error_bare_enum_default_suggests_quoting`
#guard passes (.rejected none)
  "protocol Test {\n            enum Color { RED, GREEN, BLUE }\n            record Palette { Color primary = YELLOW; }\n        }"

-- /repo/src/reader.rs, `parse_error_empty_union_single_message`
#guard passes (.rejected none)
  "protocol Test {\n  record User {\n    union {} name;\n  }\n}"

-- /repo/src/reader.rs, `parse_error_extra_content_after_protocol_no_u001a`
#guard passes (.rejected none)
  "@namespace(\"test\")\nprotocol Test {\n  record Foo {\n    string name;\n  }\n} extra\n"

-- /repo/src/reader.rs, `parse_error_fixed_negative_size`
#guard passes (.rejected (some (2, 14)))
  "protocol Test {\n  fixed Hash(-5);\n}"

-- /repo/src/reader.rs, `parse_error_fixed_non_integer_size`
#guard passes (.rejected none)
  "protocol Test {\n  fixed MD5(abc);\n}"

-- /repo/src/reader.rs, `parse_error_import_without_kind`
#guard passes (.rejected none)
  "protocol Test {\n  import \"foo.avdl\";\n}"

-- /repo/src/reader.rs, `parse_error_map_empty_type_parameter`
#guard passes (.rejected none)
  "protocol Test {\n  record Foo {\n    map<> data;\n  }\n}"

-- /repo/src/reader.rs, `parse_error_missing_enum_name`
#guard passes (.rejected none)
  "protocol Test {\n  enum {\n    RED, GREEN, BLUE\n  }\n}"

-- /repo/src/reader.rs, `parse_error_missing_protocol_name`
#guard passes (.rejected none)
  "protocol {\n  record Foo {\n    string name;\n  }\n}"

-- /repo/src/reader.rs, `parse_error_missing_record_brace_before_enum`
#guard passes (.rejected none)
  "protocol Test {\n  record Foo {\n    string name;\n\n  enum Color {\n    RED, GREEN, BLUE\n  }\n}"

-- /repo/src/reader.rs, `parse_error_missing_record_brace_before_record`
#guard passes (.rejected none)
  "protocol Test {\n  record Foo {\n    string name;\n    int age;\n\n  record Bar {\n    string value;\n  }\n}"

-- /repo/src/reader.rs, `parse_error_missing_record_name`
#guard passes (.rejected none)
  "protocol Test {\n  record {\n    string name;\n  }\n}"

-- /repo/src/reader.rs, `parse_error_missing_semicolon_no_jargon`
#guard passes (.rejected none)
  "protocol Test {\n  record Foo {\n    string name\n    int age;\n  }\n}"

-- /repo/src/reader.rs, `parse_error_misspelled_protocol_after_namespace`
#guard passes (.rejected none)
  "@namespace(\"test\")\nprotocl Test {\n  record Foo { string name; }\n}"

-- /repo/src/reader.rs, `parse_error_misspelled_protocol_at_top_level`
#guard passes (.rejected none)
  "protocl Test {\n  record Foo {\n    string name;\n  }\n}"

-- /repo/src/reader.rs, `parse_error_misspelled_record_keyword`
#guard passes (.rejected none)
  "@namespace(\"test\")\nprotocol Test {\n  recrod Foo {\n    string name;\n  }\n}"

-- /repo/src/reader.rs, `parse_error_trailing_comma_in_enum`
#guard passes (.rejected none)
  "protocol Test {\n  enum Color {\n    RED,\n    GREEN,\n    BLUE,\n  }\n}"

-- /repo/src/reader.rs, `parse_error_unclosed_protocol_brace`
#guard passes (.rejected none)
  "protocol Test {\n  record User {\n    string name;\n  }\n"

-- /repo/src/reader.rs, `parse_error_unclosed_record_brace`
#guard passes (.rejected none)
  "protocol Test {\n  record User {\n    string name;\n\n}"

-- /repo/src/reader.rs, `plain_null_type_accepted`
#guard passes (.accepted none)
  "protocol Test { record Foo { null value = null; } }"

-- /repo/src/reader.rs, `protocol_name_int_is_rejected`
#guard passes (.rejected none)
  "protocol `int` { }"

-- /repo/src/reader.rs, `protocol_name_null_is_rejected`
#guard passes (.rejected (some (1, 10)))
  "protocol `null` { }"

-- /repo/src/reader.rs, `response_annotation_on_message_is_rejected`
#guard passes (.rejected (some (4, 17)))
  "\n            @namespace(\"test\")\n            protocol P {\n                @response(\"custom\") void ping();\n            }\n        "

-- /repo/src/reader.rs, `sub_character_at_end_without_trailing_content`
#guard passes (.accepted none)
  "protocol P { record R { int x; } }\x1a"

-- /repo/src/reader.rs, `sub_character_treated_as_eof`
#guard passes (.accepted none)
  "protocol P { record R { int x; } }\x1atrailing garbage"

-- /repo/src/reader.rs, `type_annotation_on_field_type_is_rejected`
#guard passes (.rejected (some (4, 28)))
  "\n            @namespace(\"test\")\n            protocol P {\n                record R { @type(\"custom\") string name; }\n            }\n        "

-- /repo/src/reader.rs, `unterminated_string_in_annotation`
#guard passes (.rejected none)
  "@namespace(\"org.test)\nprotocol Test {\n  record Foo { string name; }\n}"

-- /repo/src/reader.rs, `unterminated_string_in_default_value`
#guard passes (.rejected none)
  "@namespace(\"org.test\")\nprotocol Test {\n  record Foo {\n    string name = \"unterminated;\n  }\n}"

-- /repo/src/reader.rs, `valid_protocol_still_accepted`
#guard passes (.accepted none)
  "\n            @namespace(\"test\")\n            protocol P {\n                record R { string name; }\n            }\n        "

-- /repo/src/reader.rs, `valid_qualified_alias_is_accepted`
#guard passes (.accepted none)
  "\n            protocol P {\n                @aliases([\"org.example.OldFoo\"])\n                record Foo { string name; }\n            }\n        "

-- /repo/src/reader.rs, `valid_union_no_duplicates_is_accepted`
#guard passes (.accepted none)
  "\n            protocol Test {\n                record Foo {\n                    union { null, string, int, long } field1;\n                }\n            }\n        "

-- /repo/src/reader.rs, `version_annotation_on_protocol_is_accepted`
#guard passes (.accepted none)
  "\n            @namespace(\"test\")\n            @version(\"1.0.5\")\n            protocol P {\n                record R { string name; }\n            }\n        "

/-! ## Single functions -/

-- /repo/src/doc_comments.rs, `test_strip_indents_single_line`
#guard stripIndents "A simple comment.".toList =
  "A simple comment.".toList

-- /repo/src/doc_comments.rs, `test_strip_indents_star_prefix`
#guard stripIndents "* First line\n * Second line".toList =
  "First line\nSecond line".toList

-- /repo/src/doc_comments.rs, `test_strip_indents_double_star`
#guard stripIndents "** First line\n ** Second line".toList =
  "First line\nSecond line".toList

-- /repo/src/doc_comments.rs, `test_strip_indents_whitespace`
#guard stripIndents "First line\n    Second line\n    Third line".toList =
  "First line\nSecond line\nThird line".toList

-- /repo/src/doc_comments.rs, `test_strip_indents_empty_string`
#guard stripIndents "".toList =
  "".toList

-- /repo/src/doc_comments.rs, `test_strip_indents_single_line_star_prefix_with_space`
#guard stripIndents "* text".toList =
  "text".toList

-- /repo/src/doc_comments.rs, `test_strip_indents_single_line_star_prefix_no_space`
#guard stripIndents "*text".toList =
  "text".toList

-- /repo/src/doc_comments.rs, `test_strip_indents_single_line_double_star_with_space`
#guard stripIndents "** text".toList =
  "text".toList

-- /repo/src/doc_comments.rs, `test_strip_indents_single_line_double_star_no_space`
#guard stripIndents "**text".toList =
  "text".toList

-- /repo/src/doc_comments.rs, `test_strip_indents_multi_line_star_prefix_with_blank_lines`
#guard stripIndents "* First line\n\n * Second line".toList =
  "First line\n\nSecond line".toList

-- /repo/src/doc_comments.rs, `test_strip_indents_multi_line_with_tabs`
#guard stripIndents "First line\n\tSecond line\n\tThird line".toList =
  "First line\nSecond line\nThird line".toList

-- /repo/src/doc_comments.rs, `test_strip_indents_multi_line_mixed_indent_depth`
#guard stripIndents "First\n    Second\n        Third".toList =
  "First\nSecond\n    Third".toList

-- /repo/src/doc_comments.rs, `test_strip_indents_unicode`
#guard stripIndents "* Ünïcödé text\n * More ünïcödé".toList =
  "Ünïcödé text\nMore ünïcödé".toList

-- /repo/src/doc_comments.rs, `test_strip_indents_single_star_only`
#guard stripIndents "*".toList =
  "".toList

-- /repo/src/doc_comments.rs, `test_strip_indents_double_star_only`
#guard stripIndents "**".toList =
  "".toList

-- /repo/src/doc_comments.rs, `test_strip_indents_multi_line_star_no_space_after_star`
#guard stripIndents "*First line\n *Second line".toList =
  "First line\nSecond line".toList

-- /repo/src/doc_comments.rs, `test_strip_indents_no_common_indent`
#guard stripIndents "First line\nSecond line\nThird line".toList =
  "First line\nSecond line\nThird line".toList

-- /repo/src/doc_comments.rs, `test_strip_indents_whitespace_only_lines_ignored_for_indent`
#guard stripIndents "First\n    Second\n\n    Third".toList =
  "First\nSecond\n\nThird".toList

-- /repo/src/doc_comments.rs, `test_strip_indents_single_line_plain_text`
#guard stripIndents "Just some text".toList =
  "Just some text".toList

-- /repo/src/doc_comments.rs, `test_strip_indents_multi_line_double_star_with_blank_lines`
#guard stripIndents "** First\n\n ** Second\n ** Third".toList =
  "First\n\nSecond\nThird".toList

-- /repo/src/doc_comments.rs, `test_strip_indents_tab_after_star`
#guard stripIndents "*\tFirst line\n *\tSecond line".toList =
  "First line\nSecond line".toList

-- /repo/src/doc_comments.rs, `test_strip_indents_single_line_tab_after_star`
#guard stripIndents "*\ttext".toList =
  "text".toList

-- /repo/src/doc_comments.rs, `test_strip_indents_single_line_tab_after_double_star`
#guard stripIndents "**\ttext".toList =
  "text".toList

-- /repo/src/doc_comments.rs, `test_strip_indents_mixed_whitespace_around_stars`
#guard stripIndents "* First\n\t * Second\n \t* Third".toList =
  "First\nSecond\nThird".toList

-- /repo/src/doc_comments.rs, `test_strip_indents_java_parity_with_stars`
#guard stripIndents "* First line\n\t  * Second Line\n\t * * Third Line\n\t  *\n\t  * Fifth Line".toList =
  "First line\nSecond Line\n* Third Line\n\nFifth Line".toList

-- /repo/src/doc_comments.rs, `test_strip_indents_java_parity_without_stars`
#guard stripIndents "First line\n\t Second Line\n\t  * Third Line\n\t  \n\t  Fifth Line".toList =
  "First line\nSecond Line\n * Third Line\n \n Fifth Line".toList

-- /repo/src/reader.rs, `octal_single_digit`
#guard unescapeJava "\\7".toList =
  "\x07".toList

-- /repo/src/reader.rs, `octal_two_digits`
#guard unescapeJava "\\77".toList =
  "?".toList

-- /repo/src/reader.rs, `octal_three_digits_newline`
#guard unescapeJava "\\012".toList =
  "\n".toList

-- /repo/src/reader.rs, `octal_three_digits_uppercase_a`
#guard unescapeJava "\\101".toList =
  "A".toList

-- /repo/src/reader.rs, `octal_three_digits_max`
#guard unescapeJava "\\377".toList =
  "ÿ".toList

-- /repo/src/reader.rs, `octal_high_first_digit_limits_to_two`
#guard unescapeJava "\\477".toList =
  "'7".toList

-- /repo/src/reader.rs, `octal_zero`
#guard unescapeJava "\\0".toList =
  "\x00".toList

-- /repo/src/reader.rs, `unicode_single_u`
#guard unescapeJava "\\u0041".toList =
  "A".toList

-- /repo/src/reader.rs, `unicode_multi_u`
#guard unescapeJava "\\uu0041".toList =
  "A".toList

-- /repo/src/reader.rs, `unicode_multi_u`
#guard unescapeJava "\\uuu0041".toList =
  "A".toList

-- /repo/src/reader.rs, `surrogate_pair_grinning_face`
#guard unescapeJava "\\uD83D\\uDE00".toList =
  "😀".toList

-- /repo/src/reader.rs, `surrogate_pair_with_multi_u`
#guard unescapeJava "\\uD83D\\uuDE00".toList =
  "😀".toList

-- /repo/src/reader.rs, `lone_high_surrogate_at_end`
#guard unescapeJava "\\uD83D".toList =
  "\\uD83D".toList

-- /repo/src/reader.rs, `high_surrogate_followed_by_non_surrogate_escape`
#guard unescapeJava "\\uD83D\\u0041".toList =
  "\\uD83DA".toList

-- /repo/src/reader.rs, `high_surrogate_followed_by_literal_text`
#guard unescapeJava "\\uD83Dhello".toList =
  "\\uD83Dhello".toList

-- /repo/src/reader.rs, `surrogate_pair_musical_symbol_g_clef`
#guard unescapeJava "\\uD834\\uDD1E".toList =
  "𝄞".toList

-- /repo/src/reader.rs, `trailing_backslash`
#guard unescapeJava "hello\\".toList =
  "hello\\".toList

-- /repo/src/reader.rs, `malformed_unicode_escape_too_few_digits`
#guard unescapeJava "\\u".toList =
  "\\u".toList

-- /repo/src/reader.rs, `unicode_escape_fewer_than_four_digits_still_decodes`
#guard unescapeJava "\\u41".toList =
  "A".toList

-- /repo/src/reader.rs, `invalid_unicode_code_point`
#guard unescapeJava "\\uDC00".toList =
  "\\uDC00".toList

-- /repo/src/reader.rs, `high_surrogate_followed_by_backslash_non_u`
#guard unescapeJava "\\uD800\\n".toList =
  "\\uD800\n".toList

-- /repo/src/reader.rs, `high_surrogate_followed_by_too_few_hex_digits`
#guard unescapeJava "\\uD800\\u00".toList =
  "\\uD800\x00".toList

-- /repo/src/reader.rs, `slash_is_not_unescaped`
#guard unescapeJava "\\/".toList =
  "\\/".toList

-- /repo/src/reader.rs, `standard_escapes`
#guard unescapeJava "\\n".toList =
  "\n".toList

-- /repo/src/reader.rs, `standard_escapes`
#guard unescapeJava "\\r".toList =
  "\r".toList

-- /repo/src/reader.rs, `standard_escapes`
#guard unescapeJava "\\t".toList =
  "\t".toList

-- /repo/src/reader.rs, `standard_escapes`
#guard unescapeJava "\\b".toList =
  "\x08".toList

-- /repo/src/reader.rs, `standard_escapes`
#guard unescapeJava "\\f".toList =
  "\x0c".toList

-- /repo/src/reader.rs, `standard_escapes`
#guard unescapeJava "\\\\".toList =
  "\\".toList

-- /repo/src/reader.rs, `standard_escapes`
#guard unescapeJava "\\\"".toList =
  "\"".toList

-- /repo/src/reader.rs, `standard_escapes`
#guard unescapeJava "\\'".toList =
  "'".toList

-- /repo/src/reader.rs, `mixed_escapes`
#guard unescapeJava "hello\\012world".toList =
  "hello\nworld".toList

-- /repo/src/reader.rs, `mixed_escapes`
#guard unescapeJava "\\101\\102\\103".toList =
  "ABC".toList

-- /repo/src/suggest.rs, `identical_strings`
#guard levenshtein "record".toList "record".toList = some 0

-- /repo/src/suggest.rs, `identical_strings`
#guard levenshtein "string".toList "string".toList = some 0

-- /repo/src/suggest.rs, `empty_strings`
#guard levenshtein "".toList "".toList = some 0

-- /repo/src/suggest.rs, `empty_strings`
#guard levenshtein "abc".toList "".toList = some 3

-- /repo/src/suggest.rs, `empty_strings`
#guard levenshtein "".toList "xyz".toList = some 3

-- /repo/src/suggest.rs, `single_substitution`
#guard levenshtein "string".toList "strang".toList = some 1

-- /repo/src/suggest.rs, `single_insertion`
#guard levenshtein "sting".toList "string".toList = some 1

-- /repo/src/suggest.rs, `single_insertion`
#guard levenshtein "protocoll".toList "protocol".toList = some 1

-- /repo/src/suggest.rs, `single_deletion`
#guard levenshtein "string".toList "sting".toList = some 1

-- /repo/src/suggest.rs, `single_deletion`
#guard levenshtein "protcol".toList "protocol".toList = some 1

-- /repo/src/suggest.rs, `transposition_counts_as_two_edits`
#guard levenshtein "recrod".toList "record".toList = some 2

-- /repo/src/suggest.rs, `two_edits`
#guard levenshtein "dubble".toList "double".toList = some 2

-- /repo/src/suggest.rs, `insertion_not_two_edits`
#guard levenshtein "stiring".toList "string".toList = some 1

-- /repo/src/suggest.rs, `insertion_not_two_edits`
#guard levenshtein "bolean".toList "boolean".toList = some 1

-- /repo/src/suggest.rs, `case_difference`
#guard levenshtein "String".toList "string".toList = some 1

-- /repo/src/suggest.rs, `case_difference`
#guard levenshtein "INT".toList "int".toList = some 3

-- /repo/src/suggest.rs, `short_names_allow_distance_one`
#guard maxEditDistance 1 = 1

-- /repo/src/suggest.rs, `short_names_allow_distance_one`
#guard maxEditDistance 3 = 1

-- /repo/src/suggest.rs, `short_names_allow_distance_one`
#guard maxEditDistance 4 = 1

-- /repo/src/suggest.rs, `longer_names_allow_distance_two`
#guard maxEditDistance 5 = 2

-- /repo/src/suggest.rs, `longer_names_allow_distance_two`
#guard maxEditDistance 10 = 2

-- /repo/src/reader.rs, `integer_hex`
#guard parseIntegerLiteral "0xFF" = some (255)

-- /repo/src/reader.rs, `integer_hex_uppercase`
#guard parseIntegerLiteral "0XFF" = some (255)

-- /repo/src/reader.rs, `integer_octal`
#guard parseIntegerLiteral "0777" = some (511)

-- /repo/src/reader.rs, `integer_long_suffix`
#guard parseIntegerLiteral "42L" = some (42)

-- /repo/src/reader.rs, `integer_long_suffix_lowercase`
#guard parseIntegerLiteral "42l" = some (42)

-- /repo/src/reader.rs, `integer_negative_hex`
#guard parseIntegerLiteral "-0xFF" = some (-255)

-- /repo/src/reader.rs, `integer_negative_octal`
#guard parseIntegerLiteral "-0777" = some (-511)

-- /repo/src/reader.rs, `integer_negative_octal_long`
#guard parseIntegerLiteral "-0777L" = some (-511)

-- /repo/src/reader.rs, `integer_underscore_separator`
#guard parseIntegerLiteral "1_000_000" = some (1000000)

-- /repo/src/reader.rs, `integer_large_value_becomes_long`
#guard parseIntegerLiteral "3000000000" = some (3000000000)

-- /repo/src/reader.rs, `enrich_no_viable_alternative_with_annotation`
#guard (enrich "no viable alternative at input '@betarecord'".toList).any fun o => o.any fun e =>
  e.message == "annotation `@beta` is missing its value -- use `@beta(\"value\")` syntax".toList

-- /repo/src/reader.rs, `enrich_no_viable_alternative_with_preceding_valid_annotation`
#guard (enrich "no viable alternative at input '@namespace(\"com.example\")@versionprotocol'".toList).any fun o => o.any fun e =>
  e.message == "annotation `@version` is missing its value -- use `@version(\"value\")` syntax".toList

-- /repo/src/reader.rs, `enrich_import_without_kind`
#guard (enrich "no viable alternative at input 'import\"foo.avdl\"'".toList).any fun o => o.any fun e =>
  e.message == "import statement missing kind specifier -- use `import idl`, `import protocol`, or `import schema`".toList &&
  e.label == some "missing import kind".toList

-- /repo/src/reader.rs, `enrich_mismatched_input_expecting_lparen`
#guard (enrich "mismatched input 'string' expecting '('".toList).any fun o => o.any fun e =>
  e.message == "mismatched input 'string' expecting '(' (annotations require `@name(value)` syntax)".toList

-- /repo/src/reader.rs, `enrich_returns_none_for_small_expecting_set`
#guard enrich "mismatched input '}' expecting {';', ','}".toList = some none

-- /repo/src/reader.rs, `enrich_large_extraneous_eof`
#guard (enrich "extraneous input '<EOF>' expecting {DocComment, 'protocol', 'namespace', 'import', 'idl', 'schema', 'enum', 'fixed', 'error', 'record', 'array', 'map'}".toList).any fun o => o.any fun e =>
  e.message == "unexpected end of file".toList &&
  e.label == some "unexpected end of file".toList

-- /repo/src/reader.rs, `enrich_large_extraneous_token`
#guard (enrich "extraneous input '123' expecting {DocComment, 'protocol', 'namespace', 'import', 'idl', 'schema', 'enum', 'fixed', 'error', 'record', 'array', 'map'}".toList).any fun o => o.any fun e =>
  e.message == "unexpected token `123`".toList &&
  e.label == some "unexpected `123`".toList

-- /repo/src/reader.rs, `enrich_large_mismatched_token`
#guard (enrich "mismatched input 'protocl' expecting {<EOF>, '\\u001A', DocComment, 'protocol', 'namespace', 'import', 'schema', 'enum', 'fixed', 'error', 'record', '@'}".toList).any fun o => o.any fun e =>
  e.message == "unexpected token `protocl` -- did you mean `protocol`?".toList &&
  e.label == some "did you mean `protocol`?".toList

-- /repo/src/reader.rs, `enrich_large_mismatched_eof`
#guard (enrich "mismatched input '<EOF>' expecting {'protocol', 'namespace', 'import', 'idl', 'schema', 'enum', 'fixed', 'error', 'record', 'array', 'map', 'union'}".toList).any fun o => o.any fun e =>
  e.message == "unexpected end of file".toList

-- /repo/src/reader.rs, `enrich_bare_identifier_in_json_value_position`
#guard (enrich "mismatched input 'YELLOW' expecting {'null', 'true', 'false', '{', '[', StringLiteral, IntegerLiteral, FloatingPointLiteral}".toList).any fun o => o.any fun e =>
  e.message == "unexpected token `YELLOW` -- did you mean `\"YELLOW\"`?".toList &&
  e.label == some "unexpected `YELLOW` -- did you mean `\"YELLOW\"`?".toList &&
  e.help == some "expected one of: null, true, false, {, [, string literal, integer literal, floating-point literal\nhint: did you mean \"YELLOW\"? Enum default values must be quoted strings".toList

-- /repo/src/reader.rs, `enrich_non_identifier_in_json_value_position_no_quoting_hint`
#guard (enrich "mismatched input ';' expecting {'null', 'true', 'false', '{', '[', StringLiteral, IntegerLiteral, FloatingPointLiteral}".toList).any fun o => o.any fun e =>
  e.message == "unexpected token `;`".toList &&
  e.label == some "unexpected `;`".toList &&
  e.help == some "expected one of: null, true, false, {, [, string literal, integer literal, floating-point literal".toList

-- /repo/src/reader.rs, `enrich_no_viable_alternative_misspelled_keyword`
#guard (enrich "no viable alternative at input '@namespace(\"test\")protocl'".toList).any fun o => o.any fun e =>
  e.message == "unrecognized token `protocl` -- did you mean `protocol`?".toList &&
  e.label == some "did you mean `protocol`?".toList

-- /repo/src/reader.rs, `enrich_large_set_with_misspelled_keyword_suggests_correction`
#guard (enrich "extraneous input 'recrod' expecting {DocComment, 'protocol', 'namespace', 'import', 'idl', 'schema', 'enum', 'fixed', 'error', 'record', 'array', 'map'}".toList).any fun o => o.any fun e =>
  e.message == "unexpected token `recrod` -- did you mean `record`?".toList &&
  e.label == some "did you mean `record`?".toList &&
  e.help == some "expected one of: protocol, namespace, import, idl, schema, enum, fixed, error, record, array, map".toList

-- /repo/src/reader.rs, `enrich_annotation_starting_with_keyword`
#guard (enrich "no viable alternative at input '@recordFoo'".toList).any fun o => o.any fun e =>
  e.message == "unexpected `@` before `record` -- did you mean to add an annotation? annotations use `@name(\"value\")` syntax".toList &&
  e.label == some "unexpected `@` before `record`".toList

-- /repo/src/import.rs, `parse_primitive_string`
#guard (jsonOf "\"int\"").any fun j => (jsonToSchema none j).toBool

-- /repo/src/import.rs, `parse_primitive_string`
#guard (jsonOf "\"string\"").any fun j => (jsonToSchema none j).toBool

-- /repo/src/import.rs, `parse_named_reference_with_namespace`
#guard (jsonOf "\"Foo\"").any fun j => (jsonToSchema (some "org.example") j).toBool

-- /repo/src/import.rs, `parse_named_reference_already_qualified`
#guard (jsonOf "\"com.other.Bar\"").any fun j => (jsonToSchema (some "org.example") j).toBool

-- /repo/src/import.rs, `parse_union_array`
#guard (jsonOf "[\"null\", \"string\"]").any fun j => (jsonToSchema none j).toBool

-- /repo/src/import.rs, `parse_record_object`
#guard (jsonOf "{\"type\": \"record\", \"name\": \"Event\", \"fields\": [{\"name\": \"id\", \"type\": \"long\"}, {\"name\": \"data\", \"type\": \"string\"}]}").any fun j => (jsonToSchema none j).toBool

-- /repo/src/import.rs, `parse_enum_object`
#guard (jsonOf "{\"type\": \"enum\", \"name\": \"Suit\", \"symbols\": [\"HEARTS\", \"DIAMONDS\", \"CLUBS\", \"SPADES\"]}").any fun j => (jsonToSchema none j).toBool

-- /repo/src/import.rs, `parse_fixed_object`
#guard (jsonOf "{\"type\": \"fixed\", \"name\": \"MD5\", \"size\": 16}").any fun j => (jsonToSchema none j).toBool

-- /repo/src/import.rs, `parse_logical_type_date`
#guard (jsonOf "{\"type\": \"int\", \"logicalType\": \"date\"}").any fun j => (jsonToSchema none j).toBool

-- /repo/src/import.rs, `parse_logical_type_decimal`
#guard (jsonOf "{\"type\": \"bytes\", \"logicalType\": \"decimal\", \"precision\": 10, \"scale\": 2}").any fun j => (jsonToSchema none j).toBool

-- /repo/src/import.rs, `parse_array_schema`
#guard (jsonOf "{\"type\": \"array\", \"items\": \"string\"}").any fun j => (jsonToSchema none j).toBool

-- /repo/src/import.rs, `parse_map_schema`
#guard (jsonOf "{\"type\": \"map\", \"values\": \"long\"}").any fun j => (jsonToSchema none j).toBool

-- /repo/src/import.rs, `parse_error_record`
#guard (jsonOf "{\"type\": \"error\", \"name\": \"NotFound\", \"fields\": []}").any fun j => (jsonToSchema none j).toBool

-- /repo/src/import.rs, `unknown_logical_type_preserved_as_annotated_primitive`
#guard (jsonOf "{\"type\": \"string\", \"logicalType\": \"my-custom-type\", \"extra\": 42}").any fun j => (jsonToSchema none j).toBool

-- /repo/src/import.rs, `custom_properties_on_primitive_without_logical_type_preserved`
#guard (jsonOf "{\"type\": \"int\", \"foo.bar\": \"baz\"}").any fun j => (jsonToSchema none j).toBool

-- /repo/src/import.rs, `bare_primitive_object_without_extra_properties_stays_primitive`
#guard (jsonOf "{\"type\": \"long\"}").any fun j => (jsonToSchema none j).toBool

-- /repo/src/import.rs, `record_with_qualified_name_splits_into_name_and_namespace`
#guard (jsonOf "{\"type\": \"record\", \"name\": \"ns.other.schema.Baz\", \"fields\": []}").any fun j => (jsonToSchema none j).toBool

-- /repo/src/import.rs, `record_with_qualified_name_explicit_namespace_takes_precedence`
#guard (jsonOf "{\"type\": \"record\", \"name\": \"ns.other.schema.Baz\", \"namespace\": \"explicit.ns\", \"fields\": []}").any fun j => (jsonToSchema none j).toBool

-- /repo/src/import.rs, `enum_with_qualified_name_splits`
#guard (jsonOf "{\"type\": \"enum\", \"name\": \"org.example.Suit\", \"symbols\": [\"HEARTS\"]}").any fun j => (jsonToSchema none j).toBool

-- /repo/src/import.rs, `fixed_with_qualified_name_splits`
#guard (jsonOf "{\"type\": \"fixed\", \"name\": \"com.example.MD5\", \"size\": 16}").any fun j => (jsonToSchema none j).toBool

-- /repo/src/import.rs, `record_simple_name_falls_back_to_default_namespace`
#guard (jsonOf "{\"type\": \"record\", \"name\": \"Event\", \"fields\": []}").any fun j => (jsonToSchema (some "org.default") j).toBool

-- /repo/src/import.rs, `record_qualified_name_overrides_default_namespace`
#guard (jsonOf "{\"type\": \"record\", \"name\": \"org.foo.Foo\", \"fields\": []}").any fun j => (jsonToSchema (some "org.default") j).toBool

-- /repo/src/import.rs, `register_nested_record_in_field`
#guard (jsonOf "{\"type\": \"record\", \"name\": \"Outer\", \"namespace\": \"test.nested\", \"fields\": [{\"name\": \"inner\", \"type\": {\"type\": \"record\", \"name\": \"Inner\", \"fields\": [{\"name\": \"value\", \"type\": \"int\"}]}}]}").any fun j => (jsonToSchema none j).toBool

-- /repo/src/import.rs, `register_nested_enum_in_field`
#guard (jsonOf "{\"type\": \"record\", \"name\": \"Container\", \"namespace\": \"test.nested\", \"fields\": [{\"name\": \"status\", \"type\": {\"type\": \"enum\", \"name\": \"Status\", \"symbols\": [\"ACTIVE\", \"INACTIVE\"]}}]}").any fun j => (jsonToSchema none j).toBool

-- /repo/src/import.rs, `register_nested_fixed_in_field`
#guard (jsonOf "{\"type\": \"record\", \"name\": \"Container\", \"namespace\": \"test.nested\", \"fields\": [{\"name\": \"hash\", \"type\": {\"type\": \"fixed\", \"name\": \"MD5\", \"size\": 16}}]}").any fun j => (jsonToSchema none j).toBool

-- /repo/src/import.rs, `register_nested_record_in_union`
#guard (jsonOf "{\"type\": \"record\", \"name\": \"Wrapper\", \"namespace\": \"test.nested\", \"fields\": [{\"name\": \"payload\", \"type\": [\"null\", {\"type\": \"record\", \"name\": \"Payload\", \"fields\": [{\"name\": \"data\", \"type\": \"bytes\"}]}]}]}").any fun j => (jsonToSchema none j).toBool

-- /repo/src/import.rs, `register_nested_record_in_array_items`
#guard (jsonOf "{\"type\": \"record\", \"name\": \"Collection\", \"namespace\": \"test.nested\", \"fields\": [{\"name\": \"entries\", \"type\": {\"type\": \"array\", \"items\": {\"type\": \"record\", \"name\": \"Entry\", \"fields\": [{\"name\": \"key\", \"type\": \"string\"}]}}}]}").any fun j => (jsonToSchema none j).toBool

-- /repo/src/import.rs, `register_nested_record_in_map_values`
#guard (jsonOf "{\"type\": \"record\", \"name\": \"Lookup\", \"namespace\": \"test.nested\", \"fields\": [{\"name\": \"entries\", \"type\": {\"type\": \"map\", \"values\": {\"type\": \"record\", \"name\": \"MapEntry\", \"fields\": [{\"name\": \"value\", \"type\": \"int\"}]}}}]}").any fun j => (jsonToSchema none j).toBool

-- /repo/src/import.rs, `register_deeply_nested_types`
#guard (jsonOf "{\"type\": \"record\", \"name\": \"Root\", \"namespace\": \"test.deep\", \"fields\": [{\"name\": \"data\", \"type\": [\"null\", {\"type\": \"array\", \"items\": {\"type\": \"record\", \"name\": \"Leaf\", \"fields\": [{\"name\": \"tag\", \"type\": {\"type\": \"enum\", \"name\": \"Tag\", \"symbols\": [\"A\", \"B\"]}}]}}]}]}").any fun j => (jsonToSchema none j).toBool

-- /repo/src/import.rs, `register_non_named_schema_is_noop`
#guard (jsonOf "\"int\"").any fun j => (jsonToSchema none j).toBool

-- /repo/src/import.rs, `flatten_replaces_nested_record_with_reference`
#guard (jsonOf "{\"type\": \"record\", \"name\": \"Outer\", \"namespace\": \"test\", \"fields\": [{\"name\": \"inner\", \"type\": {\"type\": \"record\", \"name\": \"Inner\", \"fields\": [{\"name\": \"x\", \"type\": \"int\"}]}}]}").any fun j => (jsonToSchema none j).toBool

-- /repo/src/import.rs, `flatten_deeply_nested_produces_correct_order`
#guard (jsonOf "{\"type\": \"record\", \"name\": \"Level1\", \"namespace\": \"test\", \"fields\": [{\"name\": \"l2\", \"type\": {\"type\": \"record\", \"name\": \"Level2\", \"fields\": [{\"name\": \"l3\", \"type\": {\"type\": \"record\", \"name\": \"Level3\", \"fields\": [{\"name\": \"tag\", \"type\": {\"type\": \"enum\", \"name\": \"Tag\", \"symbols\": [\"A\", \"B\"]}}]}}]}}]}").any fun j => (jsonToSchema none j).toBool

-- /repo/src/import.rs, `flatten_nested_in_union_replaces_with_reference`
#guard (jsonOf "{\"type\": \"record\", \"name\": \"Container\", \"namespace\": \"test\", \"fields\": [{\"name\": \"payload\", \"type\": [\"null\", {\"type\": \"record\", \"name\": \"Payload\", \"fields\": [{\"name\": \"data\", \"type\": \"bytes\"}]}]}]}").any fun j => (jsonToSchema none j).toBool

-- /repo/src/import.rs, `flatten_nested_in_array_replaces_with_reference`
#guard (jsonOf "{\"type\": \"record\", \"name\": \"Collection\", \"namespace\": \"test\", \"fields\": [{\"name\": \"entries\", \"type\": {\"type\": \"array\", \"items\": {\"type\": \"record\", \"name\": \"Entry\", \"fields\": [{\"name\": \"key\", \"type\": \"string\"}]}}}]}").any fun j => (jsonToSchema none j).toBool

-- /repo/src/import.rs, `flatten_nested_in_map_replaces_with_reference`
#guard (jsonOf "{\"type\": \"record\", \"name\": \"Lookup\", \"namespace\": \"test\", \"fields\": [{\"name\": \"entries\", \"type\": {\"type\": \"map\", \"values\": {\"type\": \"record\", \"name\": \"MapEntry\", \"fields\": [{\"name\": \"value\", \"type\": \"int\"}]}}}]}").any fun j => (jsonToSchema none j).toBool

-- /repo/src/import.rs, `flatten_enum_replaces_with_reference`
#guard (jsonOf "{\"type\": \"enum\", \"name\": \"Color\", \"namespace\": \"test\", \"symbols\": [\"RED\", \"GREEN\", \"BLUE\"]}").any fun j => (jsonToSchema none j).toBool

-- /repo/src/import.rs, `json_to_schema_rejects_boolean`
#guard (jsonOf "true").any fun j => !(jsonToSchema none j).toBool

-- /repo/src/import.rs, `json_to_schema_rejects_number`
#guard (jsonOf "42").any fun j => !(jsonToSchema none j).toBool

-- /repo/src/import.rs, `json_to_schema_rejects_unknown_type_field`
#guard (jsonOf "{\"type\": \"widget\", \"name\": \"Gadget\"}").any fun j => !(jsonToSchema none j).toBool

-- /repo/src/import.rs, `json_to_schema_rejects_missing_type_field`
#guard (jsonOf "{\"name\": \"NoType\", \"fields\": []}").any fun j => !(jsonToSchema none j).toBool

/-! ## Several files -/

/-- The files of /repo/tests/testdata. -/
def testdata (p : Path) : Option String :=
  if p = "cycle_a.avdl" then some
    "@namespace(\"test.cycle\")\nprotocol CycleA {\n  import idl \"cycle_b.avdl\";\n  record RecA { string name; }\n}\n"
  else if p = "cycle_b.avdl" then some
    "@namespace(\"test.cycle\")\nprotocol CycleB {\n  import idl \"cycle_a.avdl\";\n  record RecB { string name; }\n}\n"
  else if p = "self_import.avdl" then some
    "@namespace(\"test.cycle\")\nprotocol SelfImport {\n  import idl \"self_import.avdl\";\n  record Rec { string name; }\n}\n"
  else if p = "import_bad_avpr.avdl" then some
    "protocol Test {\n    import protocol \"bad_json.avpr\";\n    record Foo { string name; }\n}\n"
  else if p = "import_bad_avsc.avdl" then some
    "protocol Test {\n    import schema \"bad_json.avsc\";\n    record Foo { string name; }\n}\n"
  else if p = "bad_json.avpr" then some
    "{ broken json }"
  else if p = "bad_json.avsc" then some
    "{ broken json }"
  else if p = "syntax_error.avdl" then some
    "@namespace(\"test.error\")\nprotocol SyntaxError {\n  // Missing semicolon after field declaration\n  record BadRecord {\n    string name\n  }\n}\n"
  else if p = "test_import_syntax_error.avdl" then some
    "@namespace(\"test\")\nprotocol ImportError {\n  import idl \"syntax_error.avdl\";\n\n  record MyRecord {\n    string value;\n  }\n}\n"
  else if p = "unknown_type.avdl" then some
    "protocol Test {\n  record Foo {\n    unknown.type field;\n  }\n}\n\n"
  else if p = "test_import_unknown_type.avdl" then some
    "@namespace(\"test\")\nprotocol ImportError {\n  import idl \"unknown_type.avdl\";\n\n  record MyRecord {\n    string value;\n  }\n}\n"
  else none

/-- Files of /repo/tests/testdata/regressions. -/
def regressions (p : Path) : Option String :=
  if p = "avsc-with-comment.avdl" then some
    "/**\n * Regression: import schema with a leading block comment in the .avsc file.\n *\n * Rust fails with \"invalid JSON ... expected value at line 1 column 1\" because\n * serde_json rejects the block comment. Java succeeds because Jackson accepts\n * C-style comments.\n *\n * Source: minimized from cloudera/flume flumeconfig.avdl importing\n * avroflumereport.avsc (which has a license block comment before the JSON).\n */\n@namespace(\"com.example\")\nprotocol AvscWithComment {\n  import schema \"imports/commented-report.avsc\";\n  record Wrapper {\n    Report item;\n  }\n}\n"
  else if p = "imports/commented-report.avsc" then some
    "/**\n * Regression: .avsc file with a leading block comment.\n *\n * Java's Schema.parse() uses Jackson with ALLOW_COMMENTS enabled, so it\n * silently strips C-style and C++-style comments before parsing JSON.\n * Our Rust import_schema uses serde_json which requires strict JSON and\n * rejects any leading non-JSON content.\n *\n * Source: cloudera/flume flume-core/src/main/avro/avroflumereport.avsc\n * (minimized from the original 3-field record to a single field)\n */\n{\n  \"type\": \"record\",\n  \"name\": \"com.example.Report\",\n  \"fields\": [\n    {\"name\": \"message\", \"type\": \"string\"}\n  ]\n}\n"
  else if p = "avsc-with-comment.avpr" then some
    "{\n  \"protocol\" : \"AvscWithComment\",\n  \"namespace\" : \"com.example\",\n  \"doc\" : \"Regression: import schema with a leading block comment in the .avsc file.\\n\\nRust fails with \\\"invalid JSON ... expected value at line 1 column 1\\\" because\\nserde_json rejects the block comment. Java succeeds because Jackson accepts\\nC-style comments.\\n\\nSource: minimized from cloudera/flume flumeconfig.avdl importing\\navroflumereport.avsc (which has a license block comment before the JSON).\",\n  \"types\" : [ {\n    \"type\" : \"record\",\n    \"name\" : \"Report\",\n    \"fields\" : [ {\n      \"name\" : \"message\",\n      \"type\" : \"string\"\n    } ]\n  }, {\n    \"type\" : \"record\",\n    \"name\" : \"Wrapper\",\n    \"fields\" : [ {\n      \"name\" : \"item\",\n      \"type\" : \"Report\"\n    } ]\n  } ],\n  \"messages\" : { }\n}\n"
  else none

/-- A file of the test data compiled as by `convert`. -/
def compiledFile (p : Path) : Except CompileErr CompileOutput :=
  (Builder.new.compileFile (exReimportWorld testdata) 30 p).1

/-- The names of the types compiled. -/
def typeNames (r : Except CompileErr CompileOutput) : List String :=
  match r with
  | .ok out => out.registry.map Prod.fst
  | .error _ => []

-- /repo/tests/integration.rs, `test_mutual_import_cycle_handled_gracefully` and
-- `test_self_import_cycle_handled_gracefully`
#guard typeNames (compiledFile "cycle_a.avdl") = ["test.cycle.RecB", "test.cycle.RecA"]
#guard typeNames (compiledFile "cycle_b.avdl") = ["test.cycle.RecA", "test.cycle.RecB"]
#guard typeNames (compiledFile "self_import.avdl") = ["test.cycle.Rec"]

-- /repo/tests/error_reporting.rs, snapshots of errors in files
#guard match compiledFile "import_bad_avpr.avdl" with
  | .error (.importFailed _ (.badJson p)) => p == "bad_json.avpr"
  | _ => false
#guard match compiledFile "import_bad_avsc.avdl" with
  | .error (.importFailed _ (.badJson p)) => p == "bad_json.avsc"
  | _ => false
#guard match compiledFile "test_import_syntax_error.avdl" with
  | .error (.syntaxError p) => p == "syntax_error.avdl"
  | _ => false
#guard match compiledFile "test_import_unknown_type.avdl" with
  | .error (.undefined [(n, some s)]) => n == "unknown.type" && s.file == "unknown_type.avdl"
  | _ => false

-- The document expected beside the source, /repo/tests/testdata/regressions/avsc-with-comment.avpr
#guard match (Builder.new.convert (exReimportWorld regressions) 30 "avsc-with-comment.avdl").1 with
  | .ok out => jsonOf ((regressions "avsc-with-comment.avpr").getD "") == some out.json
  | .error _ => false

end Avdl.Fidelity

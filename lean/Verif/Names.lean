import Verif.Json
/-!
# Names

Name composition, splitting, shortening and validity.
Models /repo/src/model/schema.rs 15-43, /repo/src/model/json.rs 40-47 and 569-607,
/repo/src/resolve.rs 41-79 and /repo/src/reader.rs 1909-1925.
-/

namespace Avdl

/-- `PRIMITIVE_TYPE_NAMES`, /repo/src/model/schema.rs 15-17. -/
def primitiveTypeNames : List String :=
  ["null", "boolean", "int", "long", "float", "double", "bytes", "string"]

/-- `COMPLEX_TYPE_NAMES`, /repo/src/model/json.rs 40. -/
def complexTypeNames : List String := ["record", "enum", "array", "map", "union", "fixed"]

/-- `is_schema_type_name`, /repo/src/model/json.rs 45-47. -/
def isSchemaTypeName (name : String) : Bool :=
  primitiveTypeNames.contains name || complexTypeNames.contains name

/-- `INVALID_LOGICAL_TYPE_NAMES`, /repo/src/reader.rs 1912-1918. -/
def invalidLogicalTypeNames : List String :=
  ["date", "time_ms", "timestamp_ms", "local_timestamp_ms", "uuid"]

/-- `is_invalid_type_name`, /repo/src/reader.rs 1922-1924. -/
def isInvalidTypeName (name : String) : Bool :=
  primitiveTypeNames.contains name || invalidLogicalTypeNames.contains name

/-- `make_full_name`, /repo/src/model/schema.rs 23-28. -/
def makeFullName (name : String) : Option String → String
  | some ns => if ns = "" then name else ns ++ "." ++ name
  | none => name

/-- `str::rsplit_once('.')` on character lists: text before and after the last dot. -/
def rsplitDot : List Char → Option (List Char × List Char)
  | [] => none
  | c :: cs =>
      match rsplitDot cs with
      | some (a, b) => some (c :: a, b)
      | none => if c = '.' then some ([], cs) else none

/-- `split_full_name`, /repo/src/model/schema.rs 38-43: `(simple_name, namespace)`. -/
def splitFullName (full : String) : String × Option String :=
  match rsplitDot full.toList with
  | some (ns, name) => (String.ofList name, some (String.ofList ns))
  | none => (full, none)

/-- `schema_ref_name`, /repo/src/model/json.rs 576-592. -/
def schemaRefName (name : String) (ns encl : Option String) : String :=
  if ns = encl then
    if isSchemaTypeName name then makeFullName name ns else name
  else makeFullName name ns

/-- `alias_ref_name`, /repo/src/model/json.rs 600-607. -/
def aliasRefName (alias : String) (schemaNs : Option String) : String :=
  match splitFullName alias with
  | (simple, some aliasNs) => schemaRefName simple (some aliasNs) schemaNs
  | (simple, none) => simple

/-- The Unicode character classes of Rust's `char::is_alphabetic` and
`char::is_alphanumeric`.  The tables themselves are not modelled: theorems hold for any
tables with the three listed facts (which the standard library's tables have). -/
class CharTables where
  /-- `char::is_alphabetic` -/
  alphabetic : Char → Bool
  /-- `char::is_alphanumeric` -/
  alphanumeric : Char → Bool
  alnum_of_alpha : ∀ c, alphabetic c = true → alphanumeric c = true
  dot_not_alnum : alphanumeric '.' = false
  /-- The dash is neither a letter nor a digit. -/
  dash_not_alnum : alphanumeric '-' = false

/-- The ASCII fragment of the tables, used for concrete examples. -/
@[reducible] def asciiTables : CharTables where
  alphabetic c := c.isAlpha
  alphanumeric c := c.isAlphanum
  alnum_of_alpha c h := by simp [Char.isAlphanum, h]
  dot_not_alnum := by decide
  dash_not_alnum := by decide

/-- `is_valid_avro_name`, /repo/src/resolve.rs 41-50. -/
def isValidAvroName [CharTables] (name : String) : Bool :=
  match name.toList with
  | [] => false
  | c :: cs =>
      (CharTables.alphabetic c || c == '_') &&
        cs.all (fun c => CharTables.alphanumeric c || c == '_')

/-- `str::split(sep)` on character lists (always at least one segment). -/
def splitOnChar (sep : Char) : List Char → List (List Char)
  | [] => [[]]
  | c :: cs =>
      if c = sep then [] :: splitOnChar sep cs
      else match splitOnChar sep cs with
        | [] => [[c]]
        | seg :: segs => (c :: seg) :: segs

/-- The dot-separated segments of a string, `ns.split('.')`. -/
def dotSegments (s : String) : List String :=
  (splitOnChar '.' s.toList).map String.ofList

/-- `validate_schema_name`, /repo/src/resolve.rs 57-79.  Simplification: the error text is
dropped. -/
def validateSchemaName [CharTables] (name : String) (ns : Option String) : Bool :=
  isValidAvroName name &&
    match ns with
    | some n => n == "" || (dotSegments n).all isValidAvroName
    | none => true

end Avdl

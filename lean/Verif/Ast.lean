import Verif.DocComments
import Verif.Schema
/-!
# Parse trees

The parse trees the generated parser (/repo/src/generated/idlparser.rs) hands to the reader, as
far as the reader looks at them.  Identifiers and literals are raw token texts; `start` is the
index of the node's first token in the token stream (used to find doc comments).  Where the reader
wants the position of a node, the tree has it: either that of the first token
(`span_from_context`, /repo/src/reader.rs 2319-2331) or that of the whole node or of a single token
(`make_diagnostic`, `make_diagnostic_from_token`, lines 2257-2311).

The reader only walks trees of inputs without syntax errors (/repo/src/reader.rs 2094-2152), so
the "missing child" errors of the walkers cannot occur and the types below have no room for them.
-/

namespace Avdl

/-- `jsonValue`, `jsonObject`, `jsonArray`, `jsonLiteral`.  `span` is that of the literal, which an
error about a number points at (/repo/src/reader.rs 3744-3753). -/
inductive JVal where
  | null
  | true
  | false
  | str (raw : String)
  | int (text : String) (span : Option Span)
  | float (text : String) (span : Option Span)
  | arr (l : List JVal)
  | obj (m : List (String × JVal))

/-- `schemaProperty`: `@name(value)`, and the span of the whole. -/
structure Annot where
  name : String
  value : JVal
  span : Option Span

/-- `primitiveType`, with the spans of precision and scale. -/
inductive PrimTok where
  | prim (p : Prim)
  | date
  | time
  | timestamp
  | localTimestamp
  | uuid
  | decimal (precision : String) (precisionSpan : Option Span)
      (scale : Option (String × Option Span))

mutual
/-- `plainType`: `arrayType`, `mapType`, `unionType`, `nullableType`.  The span of a primitive type
is that of the whole, that of a name is the span of the name. -/
inductive PlainType where
  | array (element : FullType)
  | map (value : FullType)
  | union (types : List FullType)
  | prim (p : PrimTok) (optional : Bool) (span : Option Span)
  | named (ident : String) (span : Option Span) (optional : Bool)
/-- `fullType`: annotations and a plain type, and the span of the whole. -/
inductive FullType where
  | mk (annots : List Annot) (type : PlainType) (span : Option Span)
end

/-- `variableDeclaration`.  `valueSpan` is the span of the default value or else of the
declaration (/repo/src/reader.rs 2919-2922), in both cases of the first token.  `identSpan` is the
span of the name and `defaultSpan` that of the whole default value. -/
structure VarDecl where
  start : Nat
  annots : List Annot
  ident : String
  default : Option JVal
  valueSpan : Option Span
  identSpan : Option Span
  defaultSpan : Option Span

/-- `fieldDeclaration`. -/
structure FieldDecl where
  start : Nat
  type : FullType
  vars : List VarDecl

/-- `recordDeclaration`; `identSpan` is the span of the name. -/
structure RecordDecl where
  start : Nat
  annots : List Annot
  isError : Bool
  ident : String
  fields : List FieldDecl
  identSpan : Option Span

/-- `enumDeclaration`.  `identSpan` is the span of the name; symbols have the span of the
`enumSymbol`, which includes annotations, the default that of the name. -/
structure EnumDecl where
  start : Nat
  annots : List Annot
  ident : String
  symbols : List (String × Option Span)
  default : Option (String × Option Span)
  identSpan : Option Span

/-- `fixedDeclaration`; `identSpan` is the span of the name, `sizeSpan` that of the size. -/
structure FixedDecl where
  start : Nat
  annots : List Annot
  ident : String
  size : String
  identSpan : Option Span
  sizeSpan : Option Span

/-- `namedSchemaDeclaration`. -/
inductive NamedDecl where
  | record (d : RecordDecl)
  | enum (d : EnumDecl)
  | fixed (d : FixedDecl)

/-- `ImportKind`, /repo/src/reader.rs 1956-1960. -/
inductive ImportKind where
  | idl
  | protocol
  | schema
deriving DecidableEq, Repr

/-- `importStatement`. -/
structure ImportStmt where
  kind : ImportKind
  location : String
  span : Option Span

/-- `formalParameter`, with the span of the whole. -/
structure Param where
  start : Nat
  type : FullType
  var : VarDecl
  span : Option Span

/-- `messageDeclaration`, with the span of the whole; `result = none` is `void`. -/
structure MessageDecl where
  start : Nat
  annots : List Annot
  result : Option PlainType
  ident : String
  params : List Param
  oneway : Bool
  errors : List (String × Option Span)
  span : Option Span

/-- A child of a protocol body. -/
inductive BodyItem where
  | import_ (i : ImportStmt)
  | named (d : NamedDecl) (span : Option Span)
  | message (m : MessageDecl)

/-- A child of a schema file. -/
inductive FileItem where
  | import_ (i : ImportStmt)
  | named (d : NamedDecl) (span : Option Span)

/-- `protocolDeclaration`; `identSpan` is the span of the name. -/
structure ProtocolDecl where
  start : Nat
  annots : List Annot
  ident : String
  body : List BodyItem
  identSpan : Option Span

/-- `idlFile`. -/
inductive FileAst where
  | protocol (d : ProtocolDecl)
  | schema (ns : Option String) (main : Option FullType) (body : List FileItem)

end Avdl

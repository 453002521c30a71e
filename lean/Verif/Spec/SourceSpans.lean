import Verif.Ast
import Verif.Suggest
/-!
# Specification: what a span points at

Positions count bytes of the UTF-8 encoding.  Vocabulary for C36 at the level of source texts.
-/

namespace Avdl.Spec

/-- The bytes of `text` that the span denotes are `word`. -/
def Spells (text : List Char) (span : Span) (word : List Char) : Prop :=
  ∃ before after, text = before ++ word ++ after ∧ span.offset = utf8Len before ∧
    span.length = utf8Len word

/-- A place in a parse tree with a position, and what is to be seen there: a word of the source, a
token given by its number, or the first token of a type declaration. -/
inductive Located where
  | word (w : String) (span : Option Span)
  | token (number : Nat) (span : Option Span)
  | declaration (number : Nat) (span : Option Span)

/-- What a type declaration can begin with. -/
def declarationStarts : List String := ["@", "record", "error", "enum", "fixed"]

/-- How a JSON value begins in the source. -/
def valueStart : JVal → String
  | .null => "null"
  | .true => "true"
  | .false => "false"
  | .str raw => raw
  | .int text _ => text
  | .float text _ => text
  | .arr _ => "["
  | .obj _ => "{"

mutual
/-- The type names in a type. -/
def typeSpans : FullType → List Located
  | .mk _ t _ => plainSpans t
/-- The type names in a plain type. -/
def plainSpans : PlainType → List Located
  | .array t => typeSpans t
  | .map t => typeSpans t
  | .union ts => typesSpans ts
  | .prim _ _ _ => []
  | .named ident span _ => [.word ident span]
/-- The type names in several types. -/
def typesSpans : List FullType → List Located
  | [] => []
  | t :: ts => typeSpans t ++ typesSpans ts
end

/-- The position of a default value, or else of the declaration. -/
def varSpans (v : VarDecl) : List Located :=
  match v.default with
  | some j => [.word (valueStart j) v.valueSpan]
  | none => [.token v.start v.valueSpan]

/-- The positions in a field declaration. -/
def fieldDeclSpans (d : FieldDecl) : List Located := typeSpans d.type ++ d.vars.flatMap varSpans

/-- The first token of a type declaration. -/
def namedStart : NamedDecl → Nat
  | .record d => d.start
  | .enum d => d.start
  | .fixed d => d.start

/-- The positions in a type declaration. -/
def namedSpans : NamedDecl → List Located
  | .record d => d.fields.flatMap fieldDeclSpans
  | _ => []

/-- The positions in a message. -/
def messageSpans (m : MessageDecl) : List Located :=
  (match m.result with
    | some t => plainSpans t
    | none => []) ++
  m.params.flatMap (fun p => typeSpans p.type ++ varSpans p.var) ++
  m.errors.map fun e => .word e.1 e.2

/-- The positions in a part of a protocol. -/
def bodySpans : BodyItem → List Located
  | .import_ i => [.word "import" i.span]
  | .named d s => .declaration (namedStart d) s :: namedSpans d
  | .message m => messageSpans m

/-- The positions in a part of a schema file. -/
def fileItemSpans : FileItem → List Located
  | .import_ i => [.word "import" i.span]
  | .named d s => .declaration (namedStart d) s :: namedSpans d

/-- All positions in a parse tree. -/
def fileSpans : FileAst → List Located
  | .protocol d => d.body.flatMap bodySpans
  | .schema _ main body =>
      (match main with
        | some t => typeSpans t
        | none => []) ++ body.flatMap fileItemSpans

/-- There is a position, in the given file, and it is that of what it should show. -/
def Located.Right (file : String) (text : List Char) (tokens : List Token) : Located → Prop
  | .word w span => ∃ s, span = some s ∧ s.file = file ∧ Spells text s w.toList
  | .token n span => ∃ s t, span = some s ∧ s.file = file ∧ tokens[n]? = some t ∧
      Spells text s t.text.toList
  | .declaration n span => ∃ s t, span = some s ∧ s.file = file ∧ tokens[n]? = some t ∧
      Spells text s t.text.toList ∧ t.text ∈ declarationStarts

end Avdl.Spec

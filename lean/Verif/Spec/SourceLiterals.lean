import Verif.Spec.JsonValue
import Verif.Ast
/-!
# The literals of a source file

All literals in a parse tree: JSON values of annotations and defaults, sizes, precisions and scales,
and the locations of imports.  Vocabulary for C41.
-/

namespace Avdl.Spec

/-- A literal, by the use made of it. -/
inductive SourceLiteral where
  | json (v : JVal)
  | size (text : String)
  | location (raw : String)

/-- The literal consists of tokens the lexer can deliver. -/
def SourceLiteral.Lexed : SourceLiteral → Prop
  | .json v => LexedJson v
  | .size text => IsIntegerToken text
  | .location raw => IsStringToken raw

/-- The literals of annotations. -/
def annotLits (as : List Annot) : List SourceLiteral := as.map fun a => .json a.value

/-- The literals of a type keyword. -/
def primLits : PrimTok → List SourceLiteral
  | .decimal p _ none => [.size p]
  | .decimal p _ (some s) => [.size p, .size s.1]
  | _ => []

mutual
/-- The literals of a type. -/
def typeLits : FullType → List SourceLiteral
  | .mk as t _ => annotLits as ++ plainLits t
/-- The literals of a plain type. -/
def plainLits : PlainType → List SourceLiteral
  | .array t => typeLits t
  | .map t => typeLits t
  | .union ts => typesLits ts
  | .prim p _ _ => primLits p
  | .named .. => []
/-- The literals of several types. -/
def typesLits : List FullType → List SourceLiteral
  | [] => []
  | t :: ts => typeLits t ++ typesLits ts
end

/-- The literals of a variable. -/
def varLits (v : VarDecl) : List SourceLiteral :=
  annotLits v.annots ++ v.default.toList.map .json

/-- The literals of a field declaration. -/
def fieldLits (d : FieldDecl) : List SourceLiteral := typeLits d.type ++ d.vars.flatMap varLits

/-- The literals of a type declaration.  (Annotations of enum symbols are not in the tree.) -/
def namedLits : NamedDecl → List SourceLiteral
  | .record d => annotLits d.annots ++ d.fields.flatMap fieldLits
  | .enum d => annotLits d.annots
  | .fixed d => annotLits d.annots ++ [.size d.size]

/-- The literals of a parameter. -/
def paramLits (p : Param) : List SourceLiteral := typeLits p.type ++ varLits p.var

/-- The literals of a result type. -/
def resultLits : Option PlainType → List SourceLiteral
  | some t => plainLits t
  | none => []

/-- The literals of a message. -/
def messageLits (m : MessageDecl) : List SourceLiteral :=
  annotLits m.annots ++ resultLits m.result ++ m.params.flatMap paramLits

/-- The literals of a child of a protocol. -/
def itemLits : BodyItem → List SourceLiteral
  | .import_ i => [.location i.location]
  | .named d _ => namedLits d
  | .message m => messageLits m

/-- The literals of a child of a schema file. -/
def fileItemLits : FileItem → List SourceLiteral
  | .import_ i => [.location i.location]
  | .named d _ => namedLits d

/-- The literals of a file. -/
def fileLits : FileAst → List SourceLiteral
  | .protocol d => annotLits d.annots ++ d.body.flatMap itemLits
  | .schema _ main body => (match main with
      | some t => typeLits t
      | none => []) ++ body.flatMap fileItemLits

/-- The literal denotes a value: integers fit 64 bits, sizes are plain numbers below `2^32`. -/
def SourceLiteral.Denotes [FloatTables] : SourceLiteral → Prop
  | .json v => ∃ j, JsonMeans v j
  | .size text => ∃ n mag, IntegerToken text n false false mag ∧ mag < 2 ^ 32
  | .location raw => ∃ s, StringMeans raw s

end Avdl.Spec

import Verif.Lexer
import Verif.Ast
import Verif.Compiler
import Verif.Spans
/-!
# The parser

Model of the generated parser, /repo/src/generated/idlparser.rs, run by the ANTLR runtime, for input
without syntax errors.  The parser follows the automaton serialized at lines 5490-5666; each
function below quotes the rule in its decoded form.  The optional `DocComment` at the beginning of
many rules is left out: doc comments are on the hidden channel and never reach the parser.

The runtime's prediction tries all alternatives of a rule on the whole rest of the input and takes
the first that fits.  Here the decision is made by looking at the next tokens; that this accepts the
same inputs is part of C38.  Trees of inputs with syntax errors are not modelled, the reader rejects
such inputs (/repo/src/reader.rs 2094-2152).

Recursive rules take fuel; the number of tokens is enough (C38).
-/

namespace Avdl

/-- A token the parser sees: type, text, index in the token stream and span. -/
structure PTok where
  kind : Kind
  text : String
  index : Nat
  span : Option Span
deriving DecidableEq

/-- A parser: the result and the tokens left. -/
abbrev P (α : Type) := List PTok → Option (α × List PTok)

/-- One token of a given type. -/
def pTok (k : Kind) : P PTok
  | t :: ts => if t.kind = k then some (t, ts) else none
  | [] => none

/-- `identifier`: any keyword or an identifier token. -/
def Kind.isIdent : Kind → Bool
  | .kw _ => true
  | .ident => true
  | _ => false

/-- `identifier`. -/
def pIdent : P PTok
  | t :: ts => if t.kind.isIdent then some (t, ts) else none
  | [] => none

/-- Whether the next token has a given type. -/
def nextIs (k : Kind) : List PTok → Bool
  | t :: _ => t.kind == k
  | [] => false

/-- `one (',' one)* close`. -/
def pCommas {α : Type} (one : P α) (close : Kind) : Nat → P (List α)
  | 0, _ => none
  | n + 1, ts => do
      let (a, ts) ← one ts
      if nextIs (.sym ',') ts then
        let (as, ts) ← pCommas one close n ts.tail
        return (a :: as, ts)
      else
        let (_, ts) ← pTok close ts
        return ([a], ts)

/-- `(one (',' one)*)? close`. -/
def pCommasOpt {α : Type} (one : P α) (close : Kind) (n : Nat) : P (List α) := fun ts =>
  if nextIs close ts then some ([], ts.tail) else pCommas one close n ts

/-- `one* close`. -/
def pUntil {α : Type} (one : P α) (close : Kind) : Nat → P (List α)
  | 0, _ => none
  | n + 1, ts =>
      if nextIs close ts then some ([], ts.tail)
      else do
        let (a, ts) ← one ts
        let (as, ts) ← pUntil one close n ts
        return (a :: as, ts)

/-- The span `make_diagnostic` gives a node with these tokens, /repo/src/reader.rs 2262-2279.  Tokens
have a span here (`parserTokens`). -/
def nodeSpan (ts : List PTok) : Option Span :=
  match ts.head?.bind PTok.span, ts.getLast?.bind PTok.span with
  | some a, some b =>
      let s := contextSpan ⟨a.offset, a.offset + a.length - 1⟩ ⟨b.offset, b.offset + b.length - 1⟩
      some ⟨s.1, s.2, a.file⟩
  | _, _ => none

/-- The span of the node between two points: the tokens to be read at its beginning and at its
end. -/
def spanBetween (ts ts' : List PTok) : Option Span := nodeSpan (ts.take (ts.length - ts'.length))

/-! ## JSON values -/

/-- `jsonLiteral: StringLiteral | IntegerLiteral | FloatingPointLiteral | 'true' | 'false' |
'null'`. -/
def jsonLiteral (t : PTok) : Option JVal :=
  if t.kind = .kw "null" then some .null
  else if t.kind = .kw "true" then some .true
  else if t.kind = .kw "false" then some .false
  else if t.kind = .string then some (.str t.text)
  else if t.kind = .int then some (.int t.text t.span)
  else if t.kind = .float then some (.float t.text t.span)
  else none

/-- `jsonPair: StringLiteral ':' jsonValue`. -/
def pPair (value : P JVal) : P (String × JVal) := fun ts => do
  let (k, ts) ← pTok .string ts
  let (_, ts) ← pTok (.sym ':') ts
  let (v, ts) ← value ts
  return ((k.text, v), ts)

/-- `jsonValue: jsonObject | jsonArray | jsonLiteral`, with
`jsonObject: '{' (jsonPair (',' jsonPair)*)? '}'` and
`jsonArray: '[' (jsonValue (',' jsonValue)*)? ']'`. -/
def pJson : Nat → P JVal
  | 0, _ => none
  | _ + 1, [] => none
  | n + 1, t :: ts =>
      if t.kind = .sym '{' then
        (pCommasOpt (pPair (pJson n)) (.sym '}') n ts).map fun r => (.obj r.1, r.2)
      else if t.kind = .sym '[' then
        (pCommasOpt (pJson n) (.sym ']') n ts).map fun r => (.arr r.1, r.2)
      else (jsonLiteral t).map fun v => (v, ts)

/-- `schemaProperty: '@' identifier '(' jsonValue ')'`. -/
def pAnnot (n : Nat) : P Annot := fun ts0 => do
  let (_, ts) ← pTok (.sym '@') ts0
  let (name, ts) ← pIdent ts
  let (_, ts) ← pTok (.sym '(') ts
  let (v, ts) ← pJson n ts
  let (_, ts) ← pTok (.sym ')') ts
  return (⟨name.text, v, spanBetween ts0 ts⟩, ts)

/-- `schemaProperty*`. -/
def pAnnots : Nat → P (List Annot)
  | 0, _ => none
  | n + 1, ts =>
      if nextIs (.sym '@') ts then do
        let (a, ts) ← pAnnot n ts
        let (as, ts) ← pAnnots n ts
        return (a :: as, ts)
      else some ([], ts)

/-! ## Types -/

/-- `primitiveType` without `decimal`. -/
def simplePrim (k : Kind) : Option PrimTok :=
  if k = .kw "boolean" then some (.prim .boolean)
  else if k = .kw "int" then some (.prim .int)
  else if k = .kw "long" then some (.prim .long)
  else if k = .kw "float" then some (.prim .float)
  else if k = .kw "double" then some (.prim .double)
  else if k = .kw "string" then some (.prim .string)
  else if k = .kw "bytes" then some (.prim .bytes)
  else if k = .kw "null" then some (.prim .null)
  else if k = .kw "date" then some .date
  else if k = .kw "time_ms" then some .time
  else if k = .kw "timestamp_ms" then some .timestamp
  else if k = .kw "local_timestamp_ms" then some .localTimestamp
  else if k = .kw "uuid" then some .uuid
  else none

/-- `'?'?`. -/
def pOptional (ts : List PTok) : Bool × List PTok :=
  if nextIs (.sym '?') ts then (true, ts.tail) else (false, ts)

/-- `'decimal' '(' IntegerLiteral (',' IntegerLiteral)? ')'` behind `decimal (`. -/
def pDecimal : P PrimTok := fun ts => do
  let (p, ts) ← pTok .int ts
  if nextIs (.sym ',') ts then
    let (s, ts) ← pTok .int ts.tail
    let (_, ts) ← pTok (.sym ')') ts
    return (.decimal p.text p.span (some (s.text, s.span)), ts)
  else
    let (_, ts) ← pTok (.sym ')') ts
    return (.decimal p.text p.span none, ts)

mutual
/-- `fullType: schemaProperty* plainType`. -/
def pFull : Nat → P FullType
  | 0, _ => none
  | n + 1, ts => do
      let (as, ts1) ← pAnnots n ts
      let (t, ts2) ← pPlain n ts1
      return (.mk as t (spanBetween ts ts2), ts2)
/-- `plainType: arrayType | mapType | unionType | nullableType`, with
`arrayType: 'array' '<' fullType '>'`, `mapType: 'map' '<' fullType '>'`,
`unionType: 'union' '{' fullType (',' fullType)* '}'` and
`nullableType: (primitiveType | identifier) '?'?`. -/
def pPlain : Nat → P PlainType
  | 0, _ => none
  | _ + 1, [] => none
  | n + 1, t :: ts =>
      if t.kind = .kw "array" ∧ nextIs (.sym '<') ts then do
        let (f, ts) ← pFull n ts.tail
        let (_, ts) ← pTok (.sym '>') ts
        return (.array f, ts)
      else if t.kind = .kw "map" ∧ nextIs (.sym '<') ts then do
        let (f, ts) ← pFull n ts.tail
        let (_, ts) ← pTok (.sym '>') ts
        return (.map f, ts)
      else if t.kind = .kw "union" ∧ nextIs (.sym '{') ts then
        (pCommas (pFull n) (.sym '}') n ts.tail).map fun r => (.union r.1, r.2)
      else if t.kind = .kw "decimal" ∧ nextIs (.sym '(') ts then do
        let (p, ts1) ← pDecimal ts.tail
        return (.prim p (pOptional ts1).1 (spanBetween (t :: ts) (pOptional ts1).2),
          (pOptional ts1).2)
      else match simplePrim t.kind with
        | some p => some (.prim p (pOptional ts).1 (spanBetween (t :: ts) (pOptional ts).2),
            (pOptional ts).2)
        | none =>
            if t.kind.isIdent then
              some (.named t.text t.span (pOptional ts).1, (pOptional ts).2)
            else none
end

/-! ## Declarations -/

/-- The index of the first token. -/
def firstIndex : List PTok → Nat
  | t :: _ => t.index
  | [] => 0

/-- The span of the first token. -/
def firstSpan : List PTok → Option Span
  | t :: _ => t.span
  | [] => none

/-- `variableDeclaration: schemaProperty* identifier ('=' jsonValue)?`. -/
def pVar (n : Nat) : P VarDecl := fun ts0 => do
  let (as, ts) ← pAnnots n ts0
  let (name, ts) ← pIdent ts
  if nextIs (.sym '=') ts then
    let (v, ts') ← pJson n ts.tail
    return (⟨firstIndex ts0, as, name.text, some v,
      (firstSpan ts.tail).or (firstSpan ts0), name.span, spanBetween ts.tail ts'⟩, ts')
  else
    return (⟨firstIndex ts0, as, name.text, none, firstSpan ts0, name.span, none⟩, ts)

/-- `fieldDeclaration: fullType variableDeclaration (',' variableDeclaration)* ';'`. -/
def pField (n : Nat) : P FieldDecl := fun ts0 => do
  let (t, ts) ← pFull n ts0
  let (vs, ts) ← pCommas (pVar n) (.sym ';') n ts
  return (⟨firstIndex ts0, t, vs⟩, ts)

/-- `enumSymbol: schemaProperty* identifier`; the reader ignores the annotations
(/repo/src/reader.rs 3110-3115). -/
def pSymbol (n : Nat) : P (String × Option Span) := fun ts0 => do
  let (_, ts) ← pAnnots n ts0
  let (name, ts) ← pIdent ts
  return ((name.text, spanBetween ts0 ts), ts)

/-- `enumDefault?` with `enumDefault: '=' identifier ';'`. -/
def pEnumDefault : P (Option (String × Option Span)) := fun ts =>
  if nextIs (.sym '=') ts then do
    let (d, ts) ← pIdent ts.tail
    let (_, ts) ← pTok (.sym ';') ts
    return (some (d.text, d.span), ts)
  else some (none, ts)

/-- `namedSchemaDeclaration: fixedDeclaration | enumDeclaration | recordDeclaration`, with
`fixedDeclaration: schemaProperty* 'fixed' identifier '(' IntegerLiteral ')' ';'`,
`enumDeclaration: schemaProperty* 'enum' identifier '{' (enumSymbol (',' enumSymbol)*)? '}'
enumDefault?`, `recordDeclaration: schemaProperty* ('record' | 'error') identifier recordBody` and
`recordBody: '{' fieldDeclaration* '}'`. -/
def pNamed (n : Nat) : P (NamedDecl × Option Span) := fun ts0 => do
  let (as, ts) ← pAnnots n ts0
  match ts with
  | k :: ts =>
    let (name, ts) ← pIdent ts
    if k.kind = .kw "fixed" then
      let (_, ts) ← pTok (.sym '(') ts
      let (size, ts) ← pTok .int ts
      let (_, ts) ← pTok (.sym ')') ts
      let (_, ts) ← pTok (.sym ';') ts
      return ((.fixed ⟨firstIndex ts0, as, name.text, size.text, name.span, size.span⟩,
        firstSpan ts0), ts)
    else if k.kind = .kw "enum" then
      let (_, ts) ← pTok (.sym '{') ts
      let (syms, ts) ← pCommasOpt (pSymbol n) (.sym '}') n ts
      let (d, ts) ← pEnumDefault ts
      return ((.enum ⟨firstIndex ts0, as, name.text, syms, d, name.span⟩, firstSpan ts0), ts)
    else if k.kind = .kw "record" ∨ k.kind = .kw "error" then
      let (_, ts) ← pTok (.sym '{') ts
      let (fs, ts) ← pUntil (pField n) (.sym '}') n ts
      return ((.record ⟨firstIndex ts0, as, k.kind == .kw "error", name.text, fs, name.span⟩,
        firstSpan ts0), ts)
    else none
  | [] => none

/-- The keyword of an import. -/
def importKind (k : Kind) : Option ImportKind :=
  if k = .kw "idl" then some .idl
  else if k = .kw "protocol" then some .protocol
  else if k = .kw "schema" then some .schema
  else none

/-- `importStatement: 'import' ('schema' | 'protocol' | 'idl') StringLiteral ';'`. -/
def pImport : P ImportStmt := fun ts0 => do
  let (_, ts) ← pTok (.kw "import") ts0
  match ts with
  | k :: ts =>
    let kind ← importKind k.kind
    let (loc, ts) ← pTok .string ts
    let (_, ts) ← pTok (.sym ';') ts
    return (⟨kind, loc.text, firstSpan ts0⟩, ts)
  | [] => none

/-- `formalParameter: fullType variableDeclaration`. -/
def pParam (n : Nat) : P Param := fun ts0 => do
  let (t, ts) ← pFull n ts0
  let (v, ts) ← pVar n ts
  return (⟨firstIndex ts0, t, v, spanBetween ts0 ts⟩, ts)

/-- `resultType: 'void' | plainType`. -/
def pResult (n : Nat) : P (Option PlainType) := fun ts =>
  if nextIs (.kw "void") ts ∧ ¬ nextIs (.sym '?') ts.tail then some (none, ts.tail)
  else (pPlain n ts).map fun r => (some r.1, r.2)

/-- An identifier with its span. -/
def pName : P (String × Option Span) := fun ts =>
  (pIdent ts).map fun r => ((r.1.text, r.1.span), r.2)

/-- `('oneway' | 'throws' identifier (',' identifier)*)? ';'`. -/
def pMessageEnd (n : Nat) : P (Bool × List (String × Option Span)) := fun ts =>
  if nextIs (.kw "oneway") ts then
    (pTok (.sym ';') ts.tail).map fun r => ((true, []), r.2)
  else if nextIs (.kw "throws") ts then
    (pCommas pName (.sym ';') n ts.tail).map fun r => ((false, r.1), r.2)
  else (pTok (.sym ';') ts).map fun r => ((false, []), r.2)

/-- `messageDeclaration: schemaProperty* resultType identifier '(' (formalParameter
(',' formalParameter)*)? ')' ('oneway' | 'throws' identifier (',' identifier)*)? ';'`. -/
def pMessage (n : Nat) : P MessageDecl := fun ts0 => do
  let (as, ts) ← pAnnots n ts0
  let (res, ts) ← pResult n ts
  let (name, ts) ← pIdent ts
  let (_, ts) ← pTok (.sym '(') ts
  let (ps, ts) ← pCommasOpt (pParam n) (.sym ')') n ts
  let (e, ts) ← pMessageEnd n ts
  return (⟨firstIndex ts0, as, res, name.text, ps, e.1, e.2, spanBetween ts0 ts⟩, ts)

/-- A child of `protocolDeclarationBody: '{' (importStatement | namedSchemaDeclaration |
messageDeclaration)* '}'`. -/
def pBodyItem (n : Nat) : P BodyItem := fun ts =>
  match pImport ts with
  | some (i, ts) => some (.import_ i, ts)
  | none =>
    match pNamed n ts with
    | some ((d, s), ts) => some (.named d s, ts)
    | none => (pMessage n ts).map fun r => (.message r.1, r.2)

/-- `importStatement | namedSchemaDeclaration`. -/
def pFileItem (n : Nat) : P FileItem := fun ts =>
  match pImport ts with
  | some (i, ts) => some (.import_ i, ts)
  | none => (pNamed n ts).map fun r => (.named r.1.1 r.1.2, r.2)

/-- `protocolDeclaration: schemaProperty* 'protocol' identifier protocolDeclarationBody`. -/
def pProtocol (n : Nat) : P ProtocolDecl := fun ts0 => do
  let (as, ts) ← pAnnots n ts0
  let (_, ts) ← pTok (.kw "protocol") ts
  let (name, ts) ← pIdent ts
  let (_, ts) ← pTok (.sym '{') ts
  let (body, ts) ← pUntil (pBodyItem n) (.sym '}') n ts
  return (⟨firstIndex ts0, as, name.text, body, name.span⟩, ts)

/-- `namespaceDeclaration?` with `namespaceDeclaration: 'namespace' identifier ';'`. -/
def pNamespace : P (Option String) := fun ts =>
  if nextIs (.kw "namespace") ts then do
    let (name, ts) ← pIdent ts.tail
    let (_, ts) ← pTok (.sym ';') ts
    return (some name.text, ts)
  else some (none, ts)

/-- `mainSchemaDeclaration?` with `mainSchemaDeclaration: 'schema' fullType ';'`. -/
def pMain (n : Nat) : P (Option FullType) := fun ts =>
  if nextIs (.kw "schema") ts then do
    let (t, ts) ← pFull n ts.tail
    let (_, ts) ← pTok (.sym ';') ts
    return (some t, ts)
  else some (none, ts)

/-- `one* EOF`. -/
def pAll {α : Type} (one : P α) : Nat → List PTok → Option (List α)
  | 0, _ => none
  | _ + 1, [] => some []
  | n + 1, t :: ts => do
      let (a, ts) ← one (t :: ts)
      let as ← pAll one n ts
      return a :: as

/-- `idlFile: (protocolDeclaration | namespaceDeclaration? mainSchemaDeclaration?
(importStatement | namedSchemaDeclaration)*) ('\u001a' .*?)? EOF`.  The part after U+001A is cut
off beforehand (`cutAtSub`). -/
def pFile (n : Nat) (ts : List PTok) : Option FileAst :=
  match pProtocol n ts with
  | some (p, []) => some (.protocol p)
  | some (_, _ :: _) => none
  | none => do
      let (ns, ts) ← pNamespace ts
      let (main, ts) ← pMain n ts
      let body ← pAll (pFileItem n) n ts
      return .schema ns main body

/-! ## From text to parse tree -/

/-- The type of a token, as far as comment extraction distinguishes them. -/
def Kind.tokenType : Kind → TokenType
  | .doc => .doc
  | .ws => .ws
  | .emptyComment => .emptyComment
  | _ => .other

/-- The tokens on the default channel with their index in the stream and their span. -/
def parserTokens (file : String) : Nat → List LexToken → List PTok
  | _, [] => []
  | i, t :: ts =>
      if t.kind = .doc then parserTokens file (i + 1) ts
      else
        ⟨t.kind, t.text, i,
          (startSpan ⟨t.offset, t.offset + utf8Len t.text.toList - 1⟩).map fun s =>
            ⟨s.1, s.2, file⟩⟩ :: parserTokens file (i + 1) ts

/-- Where the tokens of `streamOf` stand. -/
def marksOf (at_ : Nat × Nat) (offset : Nat) : List Piece → List Mark
  | [] => []
  | p :: ps =>
      let rest := marksOf (advance at_ p.text) (offset + utf8Len p.text) ps
      match p.kind with
      | some k =>
          if k.skipped then rest
          else ⟨at_.1, at_.2, offset, offset + utf8Len p.text - 1⟩ :: rest
      | none => rest

/-- The errors of the lexer: no offending token, the line and column where the unrecognised text
begins. -/
def lexErrorsOf (file : String) (source : List Char) (at_ : Nat × Nat) : List Piece → List LexError
  | [] => []
  | p :: ps =>
      let rest := lexErrorsOf file source (advance at_ p.text) ps
      match p.kind with
      | some _ => rest
      | none =>
          let s := syntaxErrorSpan none (some source) at_.1 at_.2
          ⟨String.ofList p.text, at_.1, at_.2, ⟨s.1, s.2, file⟩⟩ :: rest

/-- `parse_idl_named` up to the tree walk, /repo/src/reader.rs 2011-2152: `none` on syntax errors.
The token stream ends with the end-of-file token, whose place is left out. -/
def parseSource (file text : String) : Option Source :=
  let pieces := lex (cutAtSub text.toList)
  let stream := streamOf 0 pieces
  let toks := parserTokens file 0 stream
  (pFile (toks.length + 1) toks).map fun ast =>
    ⟨stream.map (fun t => ⟨t.kind.tokenType, t.text⟩) ++ [⟨.other, "<EOF>"⟩],
      marksOf (1, 0) 0 pieces, ast, lexErrorsOf file (cutAtSub text.toList) (1, 0) pieces⟩

end Avdl

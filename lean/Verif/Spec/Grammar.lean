import Verif.Parser
/-!
# The grammar

The rules of the IDL grammar as relations between a list of tokens and the tree they denote: an
independent specification of the parser (C38).  Each constructor is an alternative of a rule.

The grammar is ambiguous in two places, and the runtime takes the first alternative in both: the
name of a simple primitive type used as a type is the primitive, not a reference to a type of that
name; and `void` alone is no result, not a reference to a type of that name.  These are the side
conditions of `Plain.named` and `Result.plain`.

Trees carry positions: `firstSpan ts` is that of the first of the tokens, `nodeSpan ts` reaches from
the first to the last (`C36_node_positions`).
-/

namespace Avdl.Spec.Grammar

/-- A list of tokens and what it denotes. -/
abbrev Rel (α : Type) := List PTok → α → Prop

/-- `t` is the given sign. -/
def Sign (c : Char) (t : PTok) : Prop := t.kind = .sym c

/-- `t` is the given keyword. -/
def Word (w : String) (t : PTok) : Prop := t.kind = .kw w

/-- `t` may stand where the grammar wants an identifier: identifiers and all keywords. -/
def Ident (t : PTok) : Prop := t.kind = .ident ∨ ∃ w, t.kind = .kw w

/-- `one*`. -/
inductive Many {α : Type} (one : Rel α) : Rel (List α)
  | nil : Many one [] []
  | cons {ts ts' a as} : one ts a → Many one ts' as → Many one (ts ++ ts') (a :: as)

/-- `one (',' one)*`. -/
inductive Commas {α : Type} (one : Rel α) : Rel (List α)
  | one {ts a} : one ts a → Commas one ts [a]
  | more {ts comma ts' a as} : one ts a → Sign ',' comma → Commas one ts' as →
      Commas one (ts ++ comma :: ts') (a :: as)

/-- `(one (',' one)*)?`. -/
inductive CommasOpt {α : Type} (one : Rel α) : Rel (List α)
  | none : CommasOpt one [] []
  | some {ts as} : Commas one ts as → CommasOpt one ts as

/-- `jsonLiteral`. -/
inductive Literal : Rel JVal
  | null {t} : Word "null" t → Literal [t] .null
  | true {t} : Word "true" t → Literal [t] .true
  | false {t} : Word "false" t → Literal [t] .false
  | string {t} : t.kind = .string → Literal [t] (.str t.text)
  | int {t} : t.kind = .int → Literal [t] (.int t.text t.span)
  | float {t} : t.kind = .float → Literal [t] (.float t.text t.span)

/-- `jsonPair: StringLiteral ':' jsonValue`. -/
inductive Pair (value : Rel JVal) : Rel (String × JVal)
  | mk {k colon ts v} : k.kind = .string → Sign ':' colon → value ts v →
      Pair value (k :: colon :: ts) (k.text, v)

/-- `jsonValue: jsonObject | jsonArray | jsonLiteral`. -/
inductive JsonValue : Rel JVal
  | object {l ts r m} : Sign '{' l → CommasOpt (Pair JsonValue) ts m → Sign '}' r →
      JsonValue (l :: ts ++ [r]) (.obj m)
  | array {l ts r vs} : Sign '[' l → CommasOpt JsonValue ts vs → Sign ']' r →
      JsonValue (l :: ts ++ [r]) (.arr vs)
  | literal {ts v} : Literal ts v → JsonValue ts v

/-- `schemaProperty: '@' identifier '(' jsonValue ')'`. -/
inductive Property : Rel Annot
  | mk {a name l ts r v} : Sign '@' a → Ident name → Sign '(' l → JsonValue ts v → Sign ')' r →
      Property (a :: name :: l :: ts ++ [r])
        ⟨name.text, v, nodeSpan (a :: name :: l :: ts ++ [r])⟩

/-- The types written as one keyword. -/
inductive SimpleType : String → PrimTok → Prop
  | boolean : SimpleType "boolean" (.prim .boolean)
  | int : SimpleType "int" (.prim .int)
  | long : SimpleType "long" (.prim .long)
  | float : SimpleType "float" (.prim .float)
  | double : SimpleType "double" (.prim .double)
  | string : SimpleType "string" (.prim .string)
  | bytes : SimpleType "bytes" (.prim .bytes)
  | null : SimpleType "null" (.prim .null)
  | date : SimpleType "date" .date
  | time : SimpleType "time_ms" .time
  | timestamp : SimpleType "timestamp_ms" .timestamp
  | localTimestamp : SimpleType "local_timestamp_ms" .localTimestamp
  | uuid : SimpleType "uuid" .uuid

/-- `primitiveType`. -/
inductive Primitive : Rel PrimTok
  | simple {t w p} : Word w t → SimpleType w p → Primitive [t] p
  | decimal {d l p r} : Word "decimal" d → Sign '(' l → p.kind = .int → Sign ')' r →
      Primitive [d, l, p, r] (.decimal p.text p.span none)
  | decimalScale {d l p c s r} : Word "decimal" d → Sign '(' l → p.kind = .int → Sign ',' c →
      s.kind = .int → Sign ')' r →
      Primitive [d, l, p, c, s, r] (.decimal p.text p.span (some (s.text, s.span)))

/-- `'?'?`. -/
inductive Question : Rel Bool
  | no : Question [] false
  | yes {q} : Sign '?' q → Question [q] true

mutual
/-- `plainType: arrayType | mapType | unionType | nullableType`. -/
inductive Plain : Rel PlainType
  | array {a l ts r f} : Word "array" a → Sign '<' l → Full ts f → Sign '>' r →
      Plain (a :: l :: ts ++ [r]) (.array f)
  | map {a l ts r f} : Word "map" a → Sign '<' l → Full ts f → Sign '>' r →
      Plain (a :: l :: ts ++ [r]) (.map f)
  | union {u l ts r fs} : Word "union" u → Sign '{' l → FullList ts fs → Sign '}' r →
      Plain (u :: l :: ts ++ [r]) (.union fs)
  | primitive {ts q p b} : Primitive ts p → Question q b →
      Plain (ts ++ q) (.prim p b (nodeSpan (ts ++ q)))
  | named {t q b} : Ident t → (∀ w p, Word w t → ¬ SimpleType w p) → Question q b →
      Plain (t :: q) (.named t.text t.span b)
/-- `fullType: schemaProperty* plainType`. -/
inductive Full : Rel FullType
  | mk {as ts ps t} : Many Property as ps → Plain ts t →
      Full (as ++ ts) (.mk ps t (nodeSpan (as ++ ts)))
/-- `fullType (',' fullType)*`. -/
inductive FullList : Rel (List FullType)
  | one {ts f} : Full ts f → FullList ts [f]
  | more {ts comma ts' f fs} : Full ts f → Sign ',' comma → FullList ts' fs →
      FullList (ts ++ comma :: ts') (f :: fs)
end

/-- `variableDeclaration: schemaProperty* identifier ('=' jsonValue)?`.  The position of a node is
that of its first token. -/
inductive Variable : Rel VarDecl
  | plain {as name ps} : Many Property as ps → Ident name →
      Variable (as ++ [name])
        ⟨firstIndex (as ++ [name]), ps, name.text, none, firstSpan (as ++ [name]), name.span,
          none⟩
  | default {as name eq ts ps v} : Many Property as ps → Ident name → Sign '=' eq →
      JsonValue ts v →
      Variable (as ++ name :: eq :: ts)
        ⟨firstIndex (as ++ [name]), ps, name.text, some v,
          (firstSpan ts).or (firstSpan (as ++ [name])), name.span, nodeSpan ts⟩

/-- `fieldDeclaration: fullType variableDeclaration (',' variableDeclaration)* ';'`. -/
inductive FieldDeclaration : Rel FieldDecl
  | mk {ts vs semi f ds} : Full ts f → Commas Variable vs ds → Sign ';' semi →
      FieldDeclaration (ts ++ vs ++ [semi]) ⟨firstIndex ts, f, ds⟩

/-- `enumSymbol: schemaProperty* identifier`. -/
inductive EnumSymbol : Rel (String × Option Span)
  | mk {as name ps} : Many Property as ps → Ident name →
      EnumSymbol (as ++ [name]) (name.text, nodeSpan (as ++ [name]))

/-- `enumDefault?`. -/
inductive EnumDefault : Rel (Option (String × Option Span))
  | none : EnumDefault [] none
  | some {eq name semi} : Sign '=' eq → Ident name → Sign ';' semi →
      EnumDefault [eq, name, semi] (some (name.text, name.span))

/-- `namedSchemaDeclaration`, with the span of its first token. -/
inductive Named : Rel (NamedDecl × Option Span)
  | fixed {as k name l size r semi ps} : Many Property as ps → Word "fixed" k → Ident name →
      Sign '(' l → size.kind = .int → Sign ')' r → Sign ';' semi →
      Named (as ++ [k, name, l, size, r, semi])
        (.fixed ⟨firstIndex (as ++ [k]), ps, name.text, size.text, name.span, size.span⟩,
          firstSpan (as ++ [k]))
  | enum {as k name l ts r d ps syms dflt} : Many Property as ps → Word "enum" k → Ident name →
      Sign '{' l → CommasOpt EnumSymbol ts syms → Sign '}' r → EnumDefault d dflt →
      Named (as ++ k :: name :: l :: ts ++ r :: d)
        (.enum ⟨firstIndex (as ++ [k]), ps, name.text, syms, dflt, name.span⟩,
          firstSpan (as ++ [k]))
  | record {as k name l ts r ps fs} : Many Property as ps → Word "record" k → Ident name →
      Sign '{' l → Many FieldDeclaration ts fs → Sign '}' r →
      Named (as ++ k :: name :: l :: ts ++ [r])
        (.record ⟨firstIndex (as ++ [k]), ps, false, name.text, fs, name.span⟩,
          firstSpan (as ++ [k]))
  | error {as k name l ts r ps fs} : Many Property as ps → Word "error" k → Ident name →
      Sign '{' l → Many FieldDeclaration ts fs → Sign '}' r →
      Named (as ++ k :: name :: l :: ts ++ [r])
        (.record ⟨firstIndex (as ++ [k]), ps, true, name.text, fs, name.span⟩,
          firstSpan (as ++ [k]))

/-- `importStatement: 'import' ('schema' | 'protocol' | 'idl') StringLiteral ';'`. -/
inductive Import : Rel ImportStmt
  | schema {i k s semi} : Word "import" i → Word "schema" k → s.kind = .string → Sign ';' semi →
      Import [i, k, s, semi] ⟨.schema, s.text, i.span⟩
  | protocol {i k s semi} : Word "import" i → Word "protocol" k → s.kind = .string →
      Sign ';' semi → Import [i, k, s, semi] ⟨.protocol, s.text, i.span⟩
  | idl {i k s semi} : Word "import" i → Word "idl" k → s.kind = .string → Sign ';' semi →
      Import [i, k, s, semi] ⟨.idl, s.text, i.span⟩

/-- `formalParameter: fullType variableDeclaration`. -/
inductive Parameter : Rel Param
  | mk {ts vs f v} : Full ts f → Variable vs v →
      Parameter (ts ++ vs) ⟨firstIndex ts, f, v, nodeSpan (ts ++ vs)⟩

/-- `resultType: 'void' | plainType`. -/
inductive Result : Rel (Option PlainType)
  | void {t} : Word "void" t → Result [t] none
  | plain {ts p} : Plain ts p → (∀ t, ts = [t] → ¬ Word "void" t) → Result ts (some p)

/-- A single identifier with its span. -/
inductive Name : Rel (String × Option Span)
  | mk {t} : Ident t → Name [t] (t.text, t.span)

/-- `('oneway' | 'throws' identifier (',' identifier)*)?`. -/
inductive MessageEnd : Rel (Bool × List (String × Option Span))
  | none : MessageEnd [] (false, [])
  | oneway {t} : Word "oneway" t → MessageEnd [t] (true, [])
  | throws {t ts es} : Word "throws" t → Commas Name ts es → MessageEnd (t :: ts) (false, es)

/-- `messageDeclaration`. -/
inductive Message : Rel MessageDecl
  | mk {as rs name l ps r es semi annots res params e} : Many Property as annots →
      Result rs res → Ident name → Sign '(' l → CommasOpt Parameter ps params → Sign ')' r →
      MessageEnd es e → Sign ';' semi →
      Message (as ++ rs ++ name :: l :: ps ++ r :: es ++ [semi])
        ⟨firstIndex (as ++ rs), annots, res, name.text, params, e.1, e.2,
          nodeSpan (as ++ rs ++ name :: l :: ps ++ r :: es ++ [semi])⟩

/-- A child of `protocolDeclarationBody`. -/
inductive Item : Rel BodyItem
  | import_ {ts i} : Import ts i → Item ts (.import_ i)
  | named {ts d s} : Named ts (d, s) → Item ts (.named d s)
  | message {ts m} : Message ts m → Item ts (.message m)

/-- `importStatement | namedSchemaDeclaration`. -/
inductive SchemaItem : Rel FileItem
  | import_ {ts i} : Import ts i → SchemaItem ts (.import_ i)
  | named {ts d s} : Named ts (d, s) → SchemaItem ts (.named d s)

/-- `namespaceDeclaration?`. -/
inductive NamespaceOpt : Rel (Option String)
  | none : NamespaceOpt [] none
  | some {k name semi} : Word "namespace" k → Ident name → Sign ';' semi →
      NamespaceOpt [k, name, semi] (some name.text)

/-- `mainSchemaDeclaration?`. -/
inductive MainOpt : Rel (Option FullType)
  | none : MainOpt [] none
  | some {k ts semi f} : Word "schema" k → Full ts f → Sign ';' semi →
      MainOpt (k :: ts ++ [semi]) (some f)

/-- `idlFile`, without the part after U+001A. -/
inductive File : Rel FileAst
  | protocol {as k name l ts r annots body} : Many Property as annots → Word "protocol" k →
      Ident name → Sign '{' l → Many Item ts body → Sign '}' r →
      File (as ++ k :: name :: l :: ts ++ [r])
        (.protocol ⟨firstIndex (as ++ [k]), annots, name.text, body, name.span⟩)
  | schema {ns ms ts name main body} : NamespaceOpt ns name → MainOpt ms main →
      Many SchemaItem ts body → File (ns ++ ms ++ ts) (.schema name main body)

end Avdl.Spec.Grammar

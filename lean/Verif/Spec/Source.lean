import Verif.Spec.Annotation
import Verif.Spec.LogicalType
import Verif.Spec.WellFormed
/-!
# Specification: what declarations mean

Relations between source declarations and what they declare: full names and namespaces, the types
written, documentation, annotations, defaults, and the order of declarations.
-/

namespace Avdl.Spec

/-- Elements correspond one to one, in order. -/
inductive Matching {α β : Type} (R : α → β → Prop) : List α → List β → Prop
  | nil : Matching R [] []
  | cons {a b as bs} : R a b → Matching R as bs → Matching R (a :: as) (b :: bs)

/-! ## Names -/

/-- The name and namespace of a type declared as `ident` with namespace annotation `annotation`
inside the namespace `encl`. -/
inductive DeclaredName (encl annotation : Option String) (ident : String) :
    String → Option String → Prop
  | dotted {pre name} : ident = pre ++ "." ++ name → DotFree name →
      DeclaredName encl annotation ident name (some pre)
  | annotated {a} : DotFree ident → annotation = some a →
      DeclaredName encl annotation ident ident (some a)
  | inherited : DotFree ident → annotation = none → DeclaredName encl annotation ident ident encl

/-- The name and namespace a reference `ident` inside namespace `ns` stands for. -/
inductive ReferenceName (ns : Option String) (ident : String) : String → Option String → Prop
  | dotted {pre name} : ident = pre ++ "." ++ name → DotFree name →
      ReferenceName ns ident name (some pre)
  | plain : DotFree ident → ReferenceName ns ident ident ns

/-! ## Types -/

/-- The type behind a type keyword. -/
inductive KeywordMeans : PrimTok → Schema → Prop
  | prim {p} : KeywordMeans (.prim p) (.prim p)
  | date : KeywordMeans .date (.logical .date [])
  | time : KeywordMeans .time (.logical .timeMillis [])
  | timestamp : KeywordMeans .timestamp (.logical .timestampMillis [])
  | localTimestamp : KeywordMeans .localTimestamp (.logical .localTimestampMillis [])
  | uuid : KeywordMeans .uuid (.logical .uuid [])
  | decimal {text span precision} : parseIntegerAsU32 text = some precision → 0 < precision →
      KeywordMeans (.decimal text span none) (.logical (.decimal precision 0) [])
  | decimalScale {text span text' span' precision scale} : parseIntegerAsU32 text = some precision →
      parseIntegerAsU32 text' = some scale → 0 < precision → scale ≤ precision →
      KeywordMeans (.decimal text span (some (text', span'))) (.logical (.decimal precision scale) [])

/-- The annotation values name the logical type.  A decimal's scale that is absent or no number in
range counts as 0. -/
def GivesLogical (value : String → Option Json) (lt : LogicalType) : Prop :=
  value "logicalType" = some (.str lt.name) ∧
  ∀ precision scale, lt = .decimal precision scale →
    (∃ j, value "precision" = some j ∧ IsNat precision j ∧ precision ≤ maxInt32) ∧
    ((∃ j, value "scale" = some j ∧ IsNat scale j ∧ scale ≤ maxInt32) ∨
      (scale = 0 ∧ ∀ j n, value "scale" = some j → IsNat n j → maxInt32 < n))

/-- The annotations that make up a logical type. -/
def logicalKeys : LogicalType → List String
  | .decimal _ _ => ["logicalType", "precision", "scale"]
  | _ => ["logicalType"]

/-- What a type becomes under annotations with the given values: they are attached to it, or turn
it into a logical type.  Annotations of an optional type belong to the type that may be missing;
those of other unions are dropped; there are none on references. -/
inductive Annotated (value : String → Option Json) : Schema → Schema → Prop
  | prim {k ps} : ¬ Fits k value → (∀ n, ps.get? n = value n) →
      Annotated value (.prim k) (.annotated k ps)
  | promoted {lt ps} : GivesLogical value lt →
      (∀ n, ps.get? n = if n ∈ logicalKeys lt then none else value n) →
      Annotated value (.prim lt.base) (.logical lt ps)
  | logical {lt ps} : (∀ n, ps.get? n = value n) → Annotated value (.logical lt []) (.logical lt ps)
  | array {t ps} : (∀ n, ps.get? n = value n) → Annotated value (.array t []) (.array t ps)
  | map {t ps} : (∀ n, ps.get? n = value n) → Annotated value (.map t []) (.map t ps)
  | union {ts} : Annotated value (.union ts false) (.union ts false)
  | optional {s s'} : Annotated value s s' →
      Annotated value (.union [.prim .null, s] true) (.union [.prim .null, s'] true)

/-- `T?` is the union of `null` and `T`, which is not `null` itself. -/
inductive Optionally : Bool → Schema → Schema → Prop
  | no {s} : Optionally false s s
  | yes {s} : s ≠ .prim .null → Optionally true s (.union [.prim .null, s] true)

mutual
/-- The type a type expression inside namespace `ns` stands for. -/
inductive TypeMeans [FloatTables] (ns : Option String) : FullType → Schema → Prop
  | plain {annots t span s} : (∀ k, annotationValue annots k = none) → PlainMeans ns t s →
      TypeMeans ns (.mk annots t span) s
  | annotated {annots t span s s' k} : annotationValue annots k ≠ none → PlainMeans ns t s →
      Annotated (annotationValue annots) s s' → TypeMeans ns (.mk annots t span) s'
/-- The same for plain types. -/
inductive PlainMeans [FloatTables] (ns : Option String) : PlainType → Schema → Prop
  | array {t s} : TypeMeans ns t s → PlainMeans ns (.array t) (.array s [])
  | map {t s} : TypeMeans ns t s → PlainMeans ns (.map t) (.map s [])
  | union {ts ss} : TypesMean ns ts ss → PlainMeans ns (.union ts) (.union ss false)
  | prim {p optional span s s'} : KeywordMeans p s → Optionally optional s s' →
      PlainMeans ns (.prim p optional span) s'
  | named {ident span optional name ns' s} : ReferenceName ns (identifierText ident) name ns' →
      Optionally optional (.ref name ns' [] span) s → PlainMeans ns (.named ident span optional) s
/-- The same for lists of types. -/
inductive TypesMean [FloatTables] (ns : Option String) : List FullType → List Schema → Prop
  | nil : TypesMean ns [] []
  | cons {t s ts ss} : TypeMeans ns t s → TypesMean ns ts ss → TypesMean ns (t :: ts) (s :: ss)
end

/-- The type of a variable declared with the given type and default: the member of an optional
type that the default belongs to comes first. -/
inductive VariableType (default : Option Json) : Schema → Schema → Prop
  | swapped {t} : default ≠ none → default ≠ some .null →
      VariableType default (.union [.prim .null, t] true) (.union [t, .prim .null] true)
  | same {t} : (default = none ∨ default = some .null ∨ ∀ u, t ≠ .union [.prim .null, u] true) →
      VariableType default t t

/-- A reference or an optional reference. -/
inductive IsReference : Schema → Prop
  | plain {n ns ps sp} : IsReference (.ref n ns ps sp)
  | optional {n ns ps sp} : IsReference (.union [.prim .null, .ref n ns ps sp] true)

/-! ## Documentation -/

/-- The doc comment belonging to a declaration starting at token `start`: the closest one before
it, with nothing but whitespace and empty comments in between. -/
inductive DocBefore (tokens : List Token) (start : Nat) : Option Nat → Prop
  | found {i t} : i < start → tokens[i]? = some t → t.type = .doc →
      (∀ j u, i < j → j < start → tokens[j]? = some u → u.type = .ws ∨ u.type = .emptyComment) →
      DocBefore tokens start (some i)
  | absent : (∀ i t, i < start → tokens[i]? = some t → t.type = .doc →
      ∃ (j : Nat) (u : Token), i < j ∧ j < start ∧ tokens[j]? = some u ∧ u.type = .other) →
      DocBefore tokens start none

/-- The documentation of a declaration starting at token `start`. -/
def Documented (tokens : List Token) (start : Nat) (doc : Option String) : Prop :=
  ∃ i, DocBefore tokens start i ∧
    doc = i.bind fun i => (tokens[i]?).bind fun t => docText t.text

/-! ## Declarations -/

section
variable [CharTables] [FloatTables] [CaseTables]

/-- The custom properties are the annotations without those of special meaning, whose names are
given. -/
def PropsMean (special : List String) (as : List Annot) (ps : Props) : Prop :=
  ∀ k, ps.get? k = if k ∈ special then none else annotationValue as k

/-- The sort order a word means, in whatever case it is written. -/
inductive OrderWord : String → FieldOrder → Prop
  | ascending {s} : CaseTables.upper s = "ASCENDING" → OrderWord s .ascending
  | descending {s} : CaseTables.upper s = "DESCENDING" → OrderWord s .descending
  | ignore {s} : CaseTables.upper s = "IGNORE" → OrderWord s .ignore

/-- The sort order that an annotation, if there is one, gives a field. -/
inductive OrderMeans : Option Json → Option FieldOrder → Prop
  | absent : OrderMeans none none
  | word {s o} : OrderWord s o → OrderMeans (some (.str s)) (some o)

/-- The text of a string annotation. -/
def stringAnnotation (as : List Annot) (k : String) : Option String :=
  match annotationValue as k with
  | some (.str s) => some s
  | _ => none

/-- The texts of an annotation that is a list of strings; none if there is no annotation. -/
def stringsAnnotation (as : List Annot) (k : String) : List String :=
  match annotationValue as k with
  | some (.arr l) => l.filterMap fun j => match j with
      | .str s => some s
      | _ => none
  | _ => []

/-- The default value written. -/
def DefaultMeans (v : Option JVal) (d : Option Json) : Prop :=
  match v with
  | none => d = none
  | some v => ∃ j, walkJson v = .ok j ∧ d = some j

/-- A variable of the given type, declared inside namespace `ns`, in a declaration starting at
token `start`. -/
structure FieldMeans (tokens : List Token) (ns : Option String) (start : Nat) (type : FullType)
    (v : VarDecl) (f : Field) : Prop where
  name : f.name = identifierText v.ident
  type : ∃ t, TypeMeans ns type t ∧ VariableType f.default t f.schema
  default : DefaultMeans v.default f.default
  doc : ∃ own shared, Documented tokens v.start own ∧ Documented tokens start shared ∧
    f.doc = own.or shared
  order : OrderMeans (annotationValue v.annots "order") f.order
  aliases : f.aliases = stringsAnnotation v.annots "aliases"
  props : PropsMean ["aliases", "order"] v.annots f.props

/-- A declaration inside namespace `encl` and the type it declares. -/
inductive DeclMeans (tokens : List Token) (encl : Option String) : NamedDecl → Schema → Prop
  | record {d name ns doc fs ps} :
      DeclaredName encl (stringAnnotation d.annots "namespace") (identifierText d.ident) name ns →
      Documented tokens d.start doc →
      Matching (fun x f => FieldMeans tokens ns x.1.start x.1.type x.2 f)
        (d.fields.flatMap fun fd => fd.vars.map fun v => (fd, v)) fs →
      PropsMean ["namespace", "aliases"] d.annots ps →
      DeclMeans tokens encl (.record d) (.record name ns doc fs d.isError
        (stringsAnnotation d.annots "aliases") ps)
  | enum {d name ns doc ps} :
      DeclaredName encl (stringAnnotation d.annots "namespace") (identifierText d.ident) name ns →
      Documented tokens d.start doc →
      PropsMean ["namespace", "aliases"] d.annots ps →
      DeclMeans tokens encl (.enum d) (.enum name ns doc (d.symbols.map fun s => identifierText s.1)
        (d.default.map fun s => identifierText s.1) (stringsAnnotation d.annots "aliases") ps)
  | fixed {d name ns doc size ps} :
      DeclaredName encl (stringAnnotation d.annots "namespace") (identifierText d.ident) name ns →
      Documented tokens d.start doc →
      parseIntegerAsU32 d.size = some size →
      PropsMean ["namespace", "aliases"] d.annots ps →
      DeclMeans tokens encl (.fixed d) (.fixed name ns doc size
        (stringsAnnotation d.annots "aliases") ps)

/-- A message declared inside namespace `ns`. -/
structure MessageMeans (tokens : List Token) (ns : Option String) (d : MessageDecl) (m : Message) :
    Prop where
  doc : Documented tokens d.start m.doc
  request : Matching (fun p f => FieldMeans tokens ns p.start p.type p.var f) d.params m.request
  response : match d.result with
    | none => m.response = .prim .null
    | some t => PlainMeans ns t m.response
  annotated : (∃ k, m.props.get? k ≠ none) → ¬ IsReference m.response
  errors : match m.errors with
    | none => d.errors = []
    | some es => d.errors ≠ [] ∧ Matching (fun e s => ∃ name ns',
        ReferenceName ns (identifierText e.1) name ns' ∧ s = .ref name ns' [] e.2) d.errors es
  oneWay : m.oneWay = d.oneway
  props : PropsMean [] d.annots m.props

/-- The declarations of a file in source order: imports and types.  (Messages of a protocol are
not among them.) -/
def sourceDecls : FileAst → List FileItem
  | .protocol d => d.body.filterMap fun i => match i with
      | .import_ i => some (.import_ i)
      | .named d s => some (.named d s)
      | .message _ => none
  | .schema _ _ body => body

/-- The messages of a file in source order. -/
def sourceMessages : FileAst → List MessageDecl
  | .protocol d => d.body.filterMap fun i => match i with
      | .message m => some m
      | _ => none
  | .schema .. => []

/-- The last message of that name. -/
def lastMessage (name : String) : List MessageDecl → Option MessageDecl
  | [] => none
  | d :: ds =>
      match lastMessage name ds with
      | some m => some m
      | none => if identifierText d.ident = name then some d else none

/-- The variables of a declaration and the positions of their default values. -/
def variableSpans : NamedDecl → List (String × Span)
  | .record d => (d.fields.flatMap FieldDecl.vars).filterMap fun v =>
      v.valueSpan.map fun s => (identifierText v.ident, s)
  | .enum _ | .fixed _ => []

/-- One declaration and its place in the list of declarations read. -/
inductive ItemMeans (tokens : List Token) (ns : Option String) : FileItem → DeclItem → Prop
  | import_ {i} : ItemMeans tokens ns (.import_ i)
      (.import_ ⟨i.kind, getStringFromLiteral i.location, i.span⟩)
  | type {d span s} : DeclMeans tokens ns d s →
      ItemMeans tokens ns (.named d span) (.type s span (variableSpans d))

/-- The namespace of a file. -/
def FileNamespace : FileAst → Option String → Prop
  | .protocol d, ns => ∃ name, DeclaredName none (stringAnnotation d.annots "namespace")
      (identifierText d.ident) name ns
  | .schema n _ _, ns => ns = n.map identifierText

/-- What a whole file means. -/
structure FileMeans (tokens : List Token) (ast : FileAst) (ns : Option String) (r : ReadResult) :
    Prop where
  decls : Matching (ItemMeans tokens ns) (sourceDecls ast) r.decls
  protocol : ∀ d, ast = .protocol d → ∃ p, r.file = .protocol p ∧
    DeclaredName none (stringAnnotation d.annots "namespace") (identifierText d.ident) p.name p.ns ∧
    p.ns = ns ∧ Documented tokens d.start p.doc ∧ PropsMean ["namespace"] d.annots p.props ∧
    ∀ name, match lastMessage name (sourceMessages ast) with
      | none => ∀ m, (name, m) ∉ p.messages
      | some md => ∃ m, (name, m) ∈ p.messages ∧ MessageMeans tokens ns md m ∧
          ∀ m', (name, m') ∈ p.messages → m' = m
  schema : ∀ n t body, ast = .schema n (some t) body →
    ∃ s, r.file = .schema s ∧ TypeMeans ns t s
  named : ∀ n body, ast = .schema n none body →
    ∃ ss, r.file = .named ss ∧ ss = r.decls.filterMap fun d => match d with
      | .type s _ _ => some s
      | .import_ _ => none

end

end Avdl.Spec

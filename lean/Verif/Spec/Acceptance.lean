import Verif.Spec.Default
import Verif.Spec.LegalName
import Verif.Spec.Source
/-!
# Specification: which files are accepted, and what they are warned about

Conditions on the source alone.  Whether names are defined, which other files a file needs and
whether defaults fit the types that references stand for is not part of this.
-/

namespace Avdl.Spec

/-! ## Reserved words -/

/-- Names that no type and no protocol may have. -/
def typeKeywords : List String :=
  ["null", "boolean", "int", "long", "float", "double", "bytes", "string",
   "date", "time_ms", "timestamp_ms", "local_timestamp_ms", "uuid"]

/-- What a type says about itself in JSON; annotations may not be called so. -/
def typeAttributes : List String :=
  ["aliases", "doc", "fields", "items", "name", "namespace", "size", "symbols", "type", "values"]

/-- The same for enums. -/
def enumAttributes : List String := "default" :: typeAttributes

/-- The same for fields and parameters. -/
def fieldAttributes : List String := ["aliases", "default", "doc", "name", "order", "type"]

/-- The same for protocols. -/
def protocolAttributes : List String :=
  ["doc", "errors", "messages", "namespace", "protocol", "types"]

/-- The same for messages. -/
def messageAttributes : List String := ["doc", "errors", "one-way", "request", "response"]

/-! ## Annotations -/

section
variable [FloatTables]

/-- An annotation has a given value. -/
def HasValue (a : Annot) (j : Json) : Prop := walkJson a.value = .ok j

/-- The annotations of a construct for which the names `special` have a meaning of their own and
the other names in `reserved` are forbidden. -/
structure AnnotsOk [CaseTables] (special reserved : List String) (as : List Annot) : Prop where
  readable : ∀ a ∈ as, ∃ j, HasValue a j
  allowed : ∀ a ∈ as, identifierText a.name ∈ reserved → identifierText a.name ∈ special
  namespace_ : "namespace" ∈ special → ∀ a ∈ as, identifierText a.name = "namespace" →
    ∃ s, HasValue a (.str s)
  aliases : "aliases" ∈ special → ∀ a ∈ as, identifierText a.name = "aliases" →
    ∃ ss : List String, HasValue a (.arr (ss.map .str))
  order : "order" ∈ special → ∀ a ∈ as, identifierText a.name = "order" →
    ∃ s o, HasValue a (.str s) ∧ OrderWord s o

/-! ## Types -/

/-- The Avro type a keyword is stored as. -/
def storedAs : PrimTok → Prim
  | .prim p => p
  | .date | .time => .int
  | .timestamp | .localTimestamp => .long
  | .uuid => .string
  | .decimal .. => .bytes

/-- A union, or an optional type, which is one too. -/
inductive IsUnionType : FullType → Prop
  | union {as ts sp} : IsUnionType (.mk as (.union ts) sp)
  | prim {as p sp sp'} : IsUnionType (.mk as (.prim p true sp) sp')
  | named {as ident span sp} : IsUnionType (.mk as (.named ident span true) sp)

/-- The name by which a member of a union is told from the others. -/
inductive MemberName (ns : Option String) : FullType → String → Prop
  | array {as t sp} : MemberName ns (.mk as (.array t) sp) "array"
  | map {as t sp} : MemberName ns (.mk as (.map t) sp) "map"
  | keyword {as p o sp sp'} : MemberName ns (.mk as (.prim p o sp) sp') (storedAs p).asStr
  | named {as ident span o sp name ns'} : ReferenceName ns (identifierText ident) name ns' →
      MemberName ns (.mk as (.named ident span o) sp) (makeFullName name ns')

mutual
/-- A type expression inside namespace `ns` without mistakes. -/
inductive TypeOk [CaseTables] (ns : Option String) : FullType → Prop
  | mk {annots t sp} : AnnotsOk [] typeAttributes annots → PlainOk ns t →
      (annots ≠ [] → ∀ ident span o, t ≠ .named ident span o) → TypeOk ns (.mk annots t sp)
/-- The same for plain types. -/
inductive PlainOk [CaseTables] (ns : Option String) : PlainType → Prop
  | array {t} : TypeOk ns t → PlainOk ns (.array t)
  | map {t} : TypeOk ns t → PlainOk ns (.map t)
  | union {ts} : (∀ t ∈ ts, TypeOk ns t) → (∀ t ∈ ts, ¬ IsUnionType t) →
      ts.Pairwise (fun t u => ∀ x, MemberName ns t x → ¬ MemberName ns u x) →
      PlainOk ns (.union ts)
  | prim {p o sp s} : KeywordMeans p s → (o = true → p ≠ .prim .null) → PlainOk ns (.prim p o sp)
  | named {ident span o} : PlainOk ns (.named ident span o)
end

/-- A default value fits a type expression as far as can be told without knowing what references
stand for. -/
inductive FitsType : Json → FullType → Prop
  | keyword {v as p o sp sp'} : ConformsPrim v (storedAs p) →
      FitsType v (.mk as (.prim p o sp) sp')
  | null {as p sp sp'} : FitsType .null (.mk as (.prim p true sp) sp')
  | array {l as t sp} : (∀ v ∈ l, FitsType v t) → FitsType (.arr l) (.mk as (.array t) sp)
  | map {o as t sp} : (∀ kv ∈ o, FitsType kv.2 t) → FitsType (.obj o) (.mk as (.map t) sp)
  | union {v as ts t sp} : t ∈ ts → FitsType v t → FitsType v (.mk as (.union ts) sp)
  | named {v as ident span o sp} : FitsType v (.mk as (.named ident span o) sp)

/-! ## Declarations -/

variable [CaseTables]

/-- A field or parameter of the given type. -/
structure VariableOk (type : FullType) (v : VarDecl) : Prop where
  annots : AnnotsOk ["aliases", "order"] fieldAttributes v.annots
  default : ∀ d, v.default = some d → ∃ j, walkJson d = .ok j ∧ FitsType j type

/-- The name of a field or parameter after taking off the quotes. -/
def variableName (v : VarDecl) : String := identifierText v.ident

/-- The same for a symbol. -/
def symbolName (s : String × Option Span) : String := identifierText s.1

/-- A type declaration inside namespace `encl` without mistakes. -/
inductive DeclOk (encl : Option String) : NamedDecl → Prop
  | record {d name ns} : AnnotsOk ["namespace", "aliases"] typeAttributes d.annots →
      DeclaredName encl (stringAnnotation d.annots "namespace") (identifierText d.ident) name ns →
      name ∉ typeKeywords →
      (∀ f ∈ d.fields, TypeOk ns f.type ∧ ∀ v ∈ f.vars, VariableOk f.type v) →
      ((d.fields.flatMap fun f => f.vars).map variableName).Nodup → DeclOk encl (.record d)
  | enum {d name ns} : AnnotsOk ["namespace", "aliases"] enumAttributes d.annots →
      DeclaredName encl (stringAnnotation d.annots "namespace") (identifierText d.ident) name ns →
      name ∉ typeKeywords → (d.symbols.map symbolName).Nodup →
      (∀ s, d.default = some s → symbolName s ∈ d.symbols.map symbolName) →
      DeclOk encl (.enum d)
  | fixed {d name ns size} : AnnotsOk ["namespace", "aliases"] typeAttributes d.annots →
      DeclaredName encl (stringAnnotation d.annots "namespace") (identifierText d.ident) name ns →
      name ∉ typeKeywords → parseIntegerAsU32 d.size = some size → DeclOk encl (.fixed d)

/-- A message inside namespace `ns` without mistakes. -/
structure MessageDeclOk (ns : Option String) (d : MessageDecl) : Prop where
  annots : AnnotsOk [] messageAttributes d.annots
  result : ∀ t, d.result = some t → PlainOk ns t
  reference : d.annots ≠ [] → ∀ ident span o, d.result ≠ some (.named ident span o)
  params : ∀ p ∈ d.params, TypeOk ns p.type ∧ VariableOk p.type p.var
  distinct : (d.params.map fun p => variableName p.var).Nodup
  oneway : d.oneway = true → d.result = none ∨ ∃ sp, d.result = some (.prim (.prim .null) false sp)

/-- A file without mistakes. -/
inductive FileOk : FileAst → Prop
  | protocol {d name ns} : AnnotsOk ["namespace"] protocolAttributes d.annots →
      DeclaredName none (stringAnnotation d.annots "namespace") (identifierText d.ident) name ns →
      name ∉ typeKeywords → (∀ t span, .named t span ∈ d.body → DeclOk ns t) →
      (∀ m, .message m ∈ d.body → MessageDeclOk ns m) → FileOk (.protocol d)
  | schema {n main body} : (∀ t span, .named t span ∈ body → DeclOk (n.map identifierText) t) →
      (∀ t, main = some t → TypeOk (n.map identifierText) t) → FileOk (.schema n main body)

/-! ## Warnings -/

/-- Legal names joined by dots. -/
def StandardAlias [CharTables] (s : String) : Prop :=
  ∃ segs : List String, segs ≠ [] ∧ (∀ x ∈ segs, LegalName x) ∧ s = String.intercalate "." segs

/-- What to warn about: an alias that is no legal name, to be shown at its annotation, or annotations
without effect, to be shown at the type. -/
inductive Notice where
  | alias (s : String) (span : Option Span)
  | dropped (names : List String) (span : Option Span)

variable [CharTables]

open Classical in
/-- The aliases among the given values that are no legal names. -/
noncomputable def oddAliases (span : Option Span) : List Json → List Notice
  | [] => []
  | .str s :: js =>
      if StandardAlias s then oddAliases span js else .alias s span :: oddAliases span js
  | _ :: js => oddAliases span js

/-- What to warn about in the annotations of a construct that can have aliases. -/
noncomputable def aliasNotices (as : List Annot) : List Notice :=
  as.flatMap fun a =>
    if identifierText a.name = "aliases" then
      match walkJson a.value with
      | .ok (.arr l) => oddAliases a.span l
      | _ => []
    else []

mutual
/-- What to warn about in a type: annotations on unions. -/
def typeNotices : FullType → List Notice
  | .mk as t span => plainNotices t ++ droppedNotices as span t
/-- The same for plain types. -/
def plainNotices : PlainType → List Notice
  | .array t | .map t => typeNotices t
  | .union ts => typesNotices ts
  | .prim .. | .named .. => []
/-- The same for lists of types. -/
def typesNotices : List FullType → List Notice
  | [] => []
  | t :: ts => typeNotices t ++ typesNotices ts
/-- The annotations of a type if it is a union. -/
def droppedNotices (as : List Annot) (span : Option Span) : PlainType → List Notice
  | .union _ =>
      if as.isEmpty then [] else [.dropped (as.map fun a => identifierText a.name) span]
  | _ => []
end

/-- What to warn about in a declaration. -/
noncomputable def declNotices : NamedDecl → List Notice
  | .record d => aliasNotices d.annots ++ d.fields.flatMap fun f =>
      typeNotices f.type ++ f.vars.flatMap fun v => aliasNotices v.annots
  | .enum d => aliasNotices d.annots
  | .fixed d => aliasNotices d.annots

/-- What to warn about in a message. -/
noncomputable def messageNotices (d : MessageDecl) : List Notice :=
  (match d.result with
    | none => []
    | some t => plainNotices t) ++
  d.params.flatMap fun p => typeNotices p.type ++ aliasNotices p.var.annots

/-- What to warn about in a file, in the order of the source (a main schema last). -/
noncomputable def fileNotices : FileAst → List Notice
  | .protocol d => d.body.flatMap fun x => match x with
      | .import_ _ => []
      | .named t _ => declNotices t
      | .message m => messageNotices m
  | .schema _ main body =>
      (body.flatMap fun x => match x with
        | .import_ _ => []
        | .named t _ => declNotices t) ++
      match main with
        | none => []
        | some t => typeNotices t

/-- A warning says what it is about, and where.  The names of annotations come in any order. -/
inductive WarnsAbout : Notice → WalkWarning → Prop
  | alias {s span} : WarnsAbout (.alias s span) (.nonStandardAlias s span)
  | dropped {names keys span} : keys.Nodup → (∀ k, k ∈ keys ↔ k ∈ names) →
      WarnsAbout (.dropped names span) (.annotationsDropped keys span)

end

end Avdl.Spec

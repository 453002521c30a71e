import Verif.Spec.Acceptance
import Verif.Props.Defaults
/-!
# Specification: which mistake of a file is reported

The mistakes behind the conditions of `Acceptance`, each with the error that reports it, and which
one comes first: a construct is read from left to right, its own conditions last.  The error points
at the construct that is wrong: the number, the whole annotation, the name, ....  Vocabulary for C57.
-/

namespace Avdl.Spec

/-- The first member of a list with a mistake; those before it are fine. -/
inductive FirstBad {α : Type} (Ok : α → Prop) (Bad : α → Fault → Prop) :
    List α → Fault → Prop
  | here {a l e} : Bad a e → FirstBad Ok Bad (a :: l) e
  | later {a l e} : Ok a → FirstBad Ok Bad l e → FirstBad Ok Bad (a :: l) e

section
variable [FloatTables]

/-! ## Annotations -/

/-- A number that cannot be read, the first in a JSON value. -/
inductive JsonMistake : JVal → Fault → Prop
  | int {text span} : parseIntegerLiteral text = none →
      JsonMistake (.int text span) ⟨.badInteger text, span⟩
  | float {text span} : parseFloatingPointLiteral text = none →
      JsonMistake (.float text span) ⟨.badFloat text, span⟩
  | item {l e} : FirstBad (fun v => ∃ j, walkJson v = .ok j) JsonMistake l e →
      JsonMistake (.arr l) e
  | entry {m e} : FirstBad (fun kv => ∃ j, walkJson kv.2 = .ok j)
      (fun kv : String × JVal => JsonMistake kv.2) m e → JsonMistake (.obj m) e

/-- An annotation with a mistake; see `AnnotsOk`. -/
inductive AnnotMistake [CaseTables] (special reserved : List String) (a : Annot) : Fault → Prop
  | value {e} : JsonMistake a.value e → AnnotMistake special reserved a e
  | reserved {j} : HasValue a j → identifierText a.name ∈ reserved →
      identifierText a.name ∉ special →
      AnnotMistake special reserved a ⟨.reservedProperty (identifierText a.name), a.span⟩
  | namespace_ {j} : HasValue a j → "namespace" ∈ special → identifierText a.name = "namespace" →
      (∀ s, j ≠ .str s) → AnnotMistake special reserved a ⟨.namespaceNotString, a.span⟩
  | aliases {j} : HasValue a j → "aliases" ∈ special → identifierText a.name = "aliases" →
      (∀ ss : List String, j ≠ .arr (ss.map .str)) →
      AnnotMistake special reserved a ⟨.aliasesNotStrings, a.span⟩
  | order {j} : HasValue a j → "order" ∈ special → identifierText a.name = "order" →
      (∀ s o, OrderWord s o → j ≠ .str s) →
      AnnotMistake special reserved a ⟨.orderInvalid, a.span⟩

/-- The first mistake in annotations. -/
def AnnotsMistake [CaseTables] (special reserved : List String) : List Annot → Fault → Prop :=
  FirstBad (fun a => AnnotsOk special reserved [a]) (AnnotMistake special reserved)

/-! ## Types -/

variable [CaseTables]

mutual
/-- The first mistake in a type expression. -/
inductive TypeMistake (ns : Option String) : FullType → Fault → Prop
  | annots {annots t sp e} : AnnotsMistake [] typeAttributes annots e →
      TypeMistake ns (.mk annots t sp) e
  | plain {annots t sp e} : AnnotsOk [] typeAttributes annots → PlainMistake ns t e →
      TypeMistake ns (.mk annots t sp) e
  | reference {annots ident span o sp} : AnnotsOk [] typeAttributes annots → annots ≠ [] →
      TypeMistake ns (.mk annots (.named ident span o) sp) ⟨.annotatedReference, sp⟩
/-- The same for plain types. -/
inductive PlainMistake (ns : Option String) : PlainType → Fault → Prop
  | array {t e} : TypeMistake ns t e → PlainMistake ns (.array t) e
  | map {t e} : TypeMistake ns t e → PlainMistake ns (.map t) e
  | member {ts e} : TypesMistake ns ts e → PlainMistake ns (.union ts) e
  /-- The first member that is a union. -/
  | nested {before t after} : (∀ v ∈ before ++ t :: after, TypeOk ns v) →
      (∀ v ∈ before, ¬ IsUnionType v) → IsUnionType t →
      PlainMistake ns (.union (before ++ t :: after)) ⟨.nestedUnion, t.span⟩
  /-- The first member with the name of one before. -/
  | duplicate {before t u after x} : (∀ v ∈ before ++ t :: after, TypeOk ns v ∧ ¬ IsUnionType v) →
      before.Pairwise (fun t u => ∀ x, MemberName ns t x → ¬ MemberName ns u x) →
      MemberName ns t x → u ∈ before → MemberName ns u x →
      PlainMistake ns (.union (before ++ t :: after)) ⟨.duplicateInUnion x, t.span⟩
  | precision {p sp s o sp'} : (∀ n, parseIntegerAsU32 p = some n → n = 0) →
      PlainMistake ns (.prim (.decimal p sp s) o sp') ⟨.badPrecision, sp⟩
  | scale {p sp s sp' o sp'' n} : parseIntegerAsU32 p = some n → n ≠ 0 →
      (∀ m, parseIntegerAsU32 s = some m → n < m) →
      PlainMistake ns (.prim (.decimal p sp (some (s, sp'))) o sp'') ⟨.badScale, sp'⟩
  | null {sp} : PlainMistake ns (.prim (.prim .null) true sp) ⟨.nullableNull, sp⟩
/-- The same for lists of types. -/
inductive TypesMistake (ns : Option String) : List FullType → Fault → Prop
  | here {t ts e} : TypeMistake ns t e → TypesMistake ns (t :: ts) e
  | later {t ts e} : TypeOk ns t → TypesMistake ns ts e → TypesMistake ns (t :: ts) e
end

/-! ## Declarations -/

/-- The first mistake in a field or parameter of the given type.  The reason why a default does not
fit is explained as in C12. -/
inductive VariableMistake (ns : Option String) (type : FullType) (v : VarDecl) : Fault → Prop
  | annots {e} : AnnotsMistake ["aliases", "order"] fieldAttributes v.annots e →
      VariableMistake ns type v e
  | value {d e} : AnnotsOk ["aliases", "order"] fieldAttributes v.annots → v.default = some d →
      JsonMistake d e → VariableMistake ns type v e
  | default {d j s r} : AnnotsOk ["aliases", "order"] fieldAttributes v.annots →
      v.default = some d → walkJson d = .ok j → ¬ FitsType j type → TypeMeans ns type s →
      Props.Explains j s r →
      VariableMistake ns type v ⟨.invalidDefault (variableName v) r, v.defaultSpan⟩

/-- The first mistake in a field declaration, `before` being the names of the fields before. -/
inductive FieldMistake (ns : Option String) (record : String) (before : List String)
    (f : FieldDecl) : Fault → Prop
  | type {e} : TypeMistake ns f.type e → FieldMistake ns record before f e
  | var {e} : TypeOk ns f.type →
      FirstBad (VariableOk f.type) (VariableMistake ns f.type) f.vars e →
      FieldMistake ns record before f e
  /-- The first field with the name of one before. -/
  | repeated {vs v vs'} : TypeOk ns f.type → (∀ v ∈ f.vars, VariableOk f.type v) →
      f.vars = vs ++ v :: vs' → (before ++ vs.map variableName).Nodup →
      variableName v ∈ before ++ vs.map variableName →
      FieldMistake ns record before f ⟨.duplicateField (variableName v) record, v.identSpan⟩

/-- The first mistake in field declarations. -/
inductive FieldsMistake (ns : Option String) (record : String) :
    List String → List FieldDecl → Fault → Prop
  | here {before f fs e} : FieldMistake ns record before f e →
      FieldsMistake ns record before (f :: fs) e
  | later {before f fs e} : TypeOk ns f.type → (∀ v ∈ f.vars, VariableOk f.type v) →
      (before ++ f.vars.map variableName).Nodup →
      FieldsMistake ns record (before ++ f.vars.map variableName) fs e →
      FieldsMistake ns record before (f :: fs) e

/-- The first mistake in a type declaration inside namespace `encl`. -/
inductive DeclMistake (encl : Option String) : NamedDecl → Fault → Prop
  | recordAnnots {d e} : AnnotsMistake ["namespace", "aliases"] typeAttributes d.annots e →
      DeclMistake encl (.record d) e
  | recordName {d name ns} : AnnotsOk ["namespace", "aliases"] typeAttributes d.annots →
      DeclaredName encl (stringAnnotation d.annots "namespace") (identifierText d.ident) name ns →
      name ∈ typeKeywords → DeclMistake encl (.record d) ⟨.illegalName name, d.identSpan⟩
  | field {d name ns e} : AnnotsOk ["namespace", "aliases"] typeAttributes d.annots →
      DeclaredName encl (stringAnnotation d.annots "namespace") (identifierText d.ident) name ns →
      name ∉ typeKeywords → FieldsMistake ns name [] d.fields e → DeclMistake encl (.record d) e
  | enumAnnots {d e} : AnnotsMistake ["namespace", "aliases"] enumAttributes d.annots e →
      DeclMistake encl (.enum d) e
  | enumName {d name ns} : AnnotsOk ["namespace", "aliases"] enumAttributes d.annots →
      DeclaredName encl (stringAnnotation d.annots "namespace") (identifierText d.ident) name ns →
      name ∈ typeKeywords → DeclMistake encl (.enum d) ⟨.illegalName name, d.identSpan⟩
  /-- The first symbol that has been there before. -/
  | symbol {d name ns ss s ss'} : AnnotsOk ["namespace", "aliases"] enumAttributes d.annots →
      DeclaredName encl (stringAnnotation d.annots "namespace") (identifierText d.ident) name ns →
      name ∉ typeKeywords → d.symbols = ss ++ s :: ss' → (ss.map symbolName).Nodup →
      symbolName s ∈ ss.map symbolName →
      DeclMistake encl (.enum d) ⟨.duplicateSymbol (symbolName s), s.2⟩
  | enumDefault {d name ns s} : AnnotsOk ["namespace", "aliases"] enumAttributes d.annots →
      DeclaredName encl (stringAnnotation d.annots "namespace") (identifierText d.ident) name ns →
      name ∉ typeKeywords → (d.symbols.map symbolName).Nodup → d.default = some s →
      symbolName s ∉ d.symbols.map symbolName →
      DeclMistake encl (.enum d) ⟨.defaultNotASymbol (symbolName s), s.2⟩
  | fixedAnnots {d e} : AnnotsMistake ["namespace", "aliases"] typeAttributes d.annots e →
      DeclMistake encl (.fixed d) e
  | fixedName {d name ns} : AnnotsOk ["namespace", "aliases"] typeAttributes d.annots →
      DeclaredName encl (stringAnnotation d.annots "namespace") (identifierText d.ident) name ns →
      name ∈ typeKeywords → DeclMistake encl (.fixed d) ⟨.illegalName name, d.identSpan⟩
  | size {d name ns} : AnnotsOk ["namespace", "aliases"] typeAttributes d.annots →
      DeclaredName encl (stringAnnotation d.annots "namespace") (identifierText d.ident) name ns →
      name ∉ typeKeywords → parseIntegerAsU32 d.size = none →
      DeclMistake encl (.fixed d) ⟨.badFixedSize name, d.sizeSpan⟩

/-- The first mistake in parameters, `before` being the names of those before. -/
inductive ParamsMistake (ns : Option String) (message : String) :
    List String → List Param → Fault → Prop
  | type {before p ps e} : TypeMistake ns p.type e → ParamsMistake ns message before (p :: ps) e
  | var {before p ps e} : TypeOk ns p.type → VariableMistake ns p.type p.var e →
      ParamsMistake ns message before (p :: ps) e
  | repeated {before p ps} : TypeOk ns p.type → VariableOk p.type p.var →
      variableName p.var ∈ before →
      ParamsMistake ns message before (p :: ps)
        ⟨.duplicateParameter (variableName p.var) message, p.span⟩
  | later {before p ps e} : TypeOk ns p.type → VariableOk p.type p.var →
      variableName p.var ∉ before →
      ParamsMistake ns message (before ++ [variableName p.var]) ps e →
      ParamsMistake ns message before (p :: ps) e

/-- The message returns an optional or plain reference. -/
def ReturnsReference (d : MessageDecl) : Prop :=
  ∃ ident span o, d.result = some (.named ident span o)

/-- The first mistake in a message inside namespace `ns`. -/
inductive MessageMistake (ns : Option String) (d : MessageDecl) : Fault → Prop
  | annots {e} : AnnotsMistake [] messageAttributes d.annots e → MessageMistake ns d e
  | result {t e} : AnnotsOk [] messageAttributes d.annots → d.result = some t →
      PlainMistake ns t e → MessageMistake ns d e
  | reference : AnnotsOk [] messageAttributes d.annots → d.annots ≠ [] → ReturnsReference d →
      MessageMistake ns d ⟨.annotatedReference, d.span⟩
  | param {e} : AnnotsOk [] messageAttributes d.annots →
      (∀ t, d.result = some t → PlainOk ns t) → (d.annots ≠ [] → ¬ ReturnsReference d) →
      ParamsMistake ns (identifierText d.ident) [] d.params e → MessageMistake ns d e
  | oneway {t} : AnnotsOk [] messageAttributes d.annots →
      (∀ t, d.result = some t → PlainOk ns t) → (d.annots ≠ [] → ¬ ReturnsReference d) →
      (∀ p ∈ d.params, TypeOk ns p.type ∧ VariableOk p.type p.var) →
      (d.params.map fun p => variableName p.var).Nodup → d.oneway = true → d.result = some t →
      (∀ sp, t ≠ .prim (.prim .null) false sp) →
      MessageMistake ns d ⟨.onewayNotVoid (identifierText d.ident), d.span⟩

/-- A part of a protocol without mistakes. -/
inductive BodyItemOk (ns : Option String) : BodyItem → Prop
  | import_ {i} : BodyItemOk ns (.import_ i)
  | named {t span} : DeclOk ns t → BodyItemOk ns (.named t span)
  | message {m} : MessageDeclOk ns m → BodyItemOk ns (.message m)

/-- The first mistake in a part of a protocol. -/
inductive BodyItemMistake (ns : Option String) : BodyItem → Fault → Prop
  | named {t span e} : DeclMistake ns t e → BodyItemMistake ns (.named t span) e
  | message {m e} : MessageMistake ns m e → BodyItemMistake ns (.message m) e

/-- A part of a schema file without mistakes. -/
inductive FileItemOk (ns : Option String) : FileItem → Prop
  | import_ {i} : FileItemOk ns (.import_ i)
  | named {t span} : DeclOk ns t → FileItemOk ns (.named t span)

/-- The first mistake in a part of a schema file. -/
inductive FileItemMistake (ns : Option String) : FileItem → Fault → Prop
  | named {t span e} : DeclMistake ns t e → FileItemMistake ns (.named t span) e

/-- The first mistake in a file; the main schema is looked at last. -/
inductive FileMistake : FileAst → Fault → Prop
  | annots {d e} : AnnotsMistake ["namespace"] protocolAttributes d.annots e →
      FileMistake (.protocol d) e
  | name {d name ns} : AnnotsOk ["namespace"] protocolAttributes d.annots →
      DeclaredName none (stringAnnotation d.annots "namespace") (identifierText d.ident) name ns →
      name ∈ typeKeywords → FileMistake (.protocol d) ⟨.illegalName name, d.identSpan⟩
  | body {d name ns e} : AnnotsOk ["namespace"] protocolAttributes d.annots →
      DeclaredName none (stringAnnotation d.annots "namespace") (identifierText d.ident) name ns →
      name ∉ typeKeywords → FirstBad (BodyItemOk ns) (BodyItemMistake ns) d.body e →
      FileMistake (.protocol d) e
  | item {n main body e} :
      FirstBad (FileItemOk (n.map identifierText)) (FileItemMistake (n.map identifierText)) body e →
      FileMistake (.schema n main body) e
  | main {n t body e} : (∀ x ∈ body, FileItemOk (n.map identifierText) x) →
      TypeMistake (n.map identifierText) t e → FileMistake (.schema n (some t) body) e

end

/-- The same error, up to the words that explain why a default value does not fit. -/
inductive SameMistake : Fault → Fault → Prop
  | same {e} : SameMistake e e
  | default {f r r' sp} : SameMistake ⟨.invalidDefault f r, sp⟩ ⟨.invalidDefault f r', sp⟩

end Avdl.Spec

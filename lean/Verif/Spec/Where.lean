import Verif.Spec.Mistake
import Verif.Spec.Grammar
import Verif.Spec.SourceSpans
/-!
# Specification: where an error of a file points

What is to be seen at the position of an error or warning: the tokens of a construct of the grammar.
Vocabulary for C57, C54 and C36 at the level of source texts.
-/

namespace Avdl.Spec
open Grammar

/-- The span reaches, in the text, from the first character of the first token to the last character
of the last token. -/
def Covers (text : List Char) (span : Span) (node : List PTok) : Prop :=
  ∃ first last word, node.head? = some first ∧ node.getLast? = some last ∧
    Spells text span word ∧
    (∃ s, first.span = some s ∧ s.offset = span.offset) ∧ first.text.toList <+: word ∧
    (∃ s, last.span = some s ∧ s.offset + s.length = span.offset + span.length) ∧
    last.text.toList <:+ word

/-- What an error is about. -/
inductive ErrorAbout : ReadErr → List PTok → Prop
  | badInteger {t} : t.kind = .int → ErrorAbout (.badInteger t.text) [t]
  | badFloat {t} : t.kind = .float → ErrorAbout (.badFloat t.text) [t]
  /-- The whole annotation. -/
  | reservedProperty {ts a} : Property ts a →
      ErrorAbout (.reservedProperty (identifierText a.name)) ts
  | namespaceNotString {ts a} : Property ts a → identifierText a.name = "namespace" →
      ErrorAbout .namespaceNotString ts
  | aliasesNotStrings {ts a} : Property ts a → identifierText a.name = "aliases" →
      ErrorAbout .aliasesNotStrings ts
  | orderInvalid {ts a} : Property ts a → identifierText a.name = "order" →
      ErrorAbout .orderInvalid ts
  /-- The identifier, with namespace if it has one. -/
  | illegalName {t encl ns name ns'} : Ident t →
      DeclaredName encl ns (identifierText t.text) name ns' → ErrorAbout (.illegalName name) [t]
  | duplicateField {t record} : Ident t →
      ErrorAbout (.duplicateField (identifierText t.text) record) [t]
  /-- The symbol with its annotations. -/
  | duplicateSymbol {ts s} : EnumSymbol ts s → ErrorAbout (.duplicateSymbol (symbolName s)) ts
  | defaultNotASymbol {t} : Ident t → ErrorAbout (.defaultNotASymbol (identifierText t.text)) [t]
  | badFixedSize {t name} : t.kind = .int → parseIntegerAsU32 t.text = none →
      ErrorAbout (.badFixedSize name) [t]
  /-- The type with its annotations. -/
  | annotatedReference {ts as ident span o sp} : Full ts (.mk as (.named ident span o) sp) →
      as ≠ [] → ErrorAbout .annotatedReference ts
  /-- The message, if it is its result that is annotated. -/
  | annotatedResult {ts m} : Grammar.Message ts m → m.annots ≠ [] → ReturnsReference m →
      ErrorAbout .annotatedReference ts
  | nullableNull {t q} : Word "null" t → Sign '?' q → ErrorAbout .nullableNull [t, q]
  | badPrecision {t} : t.kind = .int → (∀ n, parseIntegerAsU32 t.text = some n → n = 0) →
      ErrorAbout .badPrecision [t]
  | badScale {t n} : t.kind = .int → (∀ m, parseIntegerAsU32 t.text = some m → n < m) →
      ErrorAbout .badScale [t]
  /-- The member of the union. -/
  | nestedUnion {ts f} : Full ts f → IsUnionType f → ErrorAbout .nestedUnion ts
  | duplicateInUnion {ts f ns x} : Full ts f → MemberName ns f x → ErrorAbout (.duplicateInUnion x) ts
  /-- The value. -/
  | invalidDefault {ts v field reason} : JsonValue ts v → ErrorAbout (.invalidDefault field reason) ts
  /-- The parameter with its type. -/
  | duplicateParameter {ts p message} : Parameter ts p →
      ErrorAbout (.duplicateParameter (variableName p.var) message) ts
  /-- The message. -/
  | onewayNotVoid {ts m} : Grammar.Message ts m → m.oneway = true →
      ErrorAbout (.onewayNotVoid (identifierText m.ident)) ts

/-- What a warning is about: the whole annotation, or the union with its annotations. -/
inductive WarningAbout [CharTables] [FloatTables] : WalkWarning → List PTok → Prop
  | alias {s ts a l span} : Property ts a → identifierText a.name = "aliases" →
      HasValue a (.arr l) → .str s ∈ l → ¬ StandardAlias s →
      WarningAbout (.nonStandardAlias s span) ts
  | dropped {keys ts as us sp span} : Full ts (.mk as (.union us) sp) →
      (∀ k, k ∈ keys ↔ k ∈ as.map fun a => identifierText a.name) →
      WarningAbout (.annotationsDropped keys span) ts

/-- The tokens of a source text that the parser gets. -/
def sourceTokens (file text : String) : List PTok :=
  parserTokens file 0 (streamOf 0 (lex (cutAtSub text.toList)))

/-- The error is about successive tokens of the text, and its position is where they stand. -/
def FaultAt (file text : String) (m : Fault) : Prop :=
  ∃ node s, node <:+: sourceTokens file text ∧ ErrorAbout m.err node ∧ m.span = some s ∧
    s.file = file ∧ Covers text.toList s node

/-- The position of a warning. -/
def warningSpan : WalkWarning → Option Span
  | .nonStandardAlias _ span => span
  | .annotationsDropped _ span => span

/-- The same for warnings. -/
def WarningAt [CharTables] [FloatTables] (file text : String) (x : WalkWarning) : Prop :=
  ∃ node s, node <:+: sourceTokens file text ∧ WarningAbout x node ∧ warningSpan x = some s ∧
    s.file = file ∧ Covers text.toList s node

end Avdl.Spec

import Verif.Spec.Layout
import Verif.Parser
import Mathlib.Data.List.Forall2
/-!
# Texts that differ in layout only

For C40: the same tokens and doc comments in the same order, with other white space and comments
between them.
-/

namespace Avdl.Spec.Reformat
open Spec.Lexing Spec.Layout

/-- The two texts, up to U+001A, have the same tokens and doc comments in the same order, and the
same unrecognised pieces. -/
def SameTokens (text text' : String) : Prop :=
  ∃ ps ps', Pieces (cutAtSub text.toList) ps ∧ Pieces (cutAtSub text'.toList) ps' ∧
    significant ps = significant ps' ∧
    ps.filter (fun p => p.kind.isNone) = ps'.filter (fun p => p.kind.isNone)

/-- Two files that can both not be read, or differ in layout only.  Read as JSON, they give the
same. -/
inductive SameFile (json : String → Option Json) : Option String → Option String → Prop
  | unreadable : SameFile json none none
  | read {text text'} : SameTokens text text' → json text = json text' →
      SameFile json (some text) (some text')

/-- Two file systems with the same directories and files, where files differ in layout only.  IDL
files are read by the lexer and parser of the model. -/
structure Reformatted (w w' : World) : Prop where
  parse : w.parse = parseSource
  same : w' = { w with read := w'.read }
  files : ∀ p, SameFile w.parseJson (w.read p) (w'.read p)

/-- Two failures with the same reason.  Positions may differ, and undefined names may be reported in
another order. -/
inductive SameReason : CompileErr → CompileErr → Prop
  | same {e} : SameReason e e
  | read {name e s s'} : SameReason (.read name ⟨e, s⟩) (.read name ⟨e, s'⟩)
  | importFailed {e s s'} : SameReason (.importFailed s e) (.importFailed s' e)
  | register {e s s'} : SameReason (.register e s) (.register e s')
  | invalidDefaults {t x s s' l l'} :
      l.map (fun y => (y.1, y.2.1)) = l'.map (fun y => (y.1, y.2.1)) →
      SameReason (.invalidDefaults t x s l) (.invalidDefaults t x s' l')
  | undefined {ns ns'} : (ns.map Prod.fst).Perm (ns'.map Prod.fst) →
      SameReason (.undefined ns) (.undefined ns')

/-- The same warning.  Positions may differ. -/
inductive SameReport : Report → Report → Prop
  | same {r} : SameReport r r
  | lexer {t l l' n n' s s' c} : SameReport ⟨.lexer ⟨t, l, n, s⟩, c⟩ ⟨.lexer ⟨t, l', n', s'⟩, c⟩
  | outOfPlaceDoc {i l l' n n' s s' c} :
      SameReport ⟨.outOfPlaceDoc i l n s, c⟩ ⟨.outOfPlaceDoc i l' n' s', c⟩
  | nonStandardAlias {a s s' c} :
      SameReport ⟨.walk (.nonStandardAlias a s), c⟩ ⟨.walk (.nonStandardAlias a s'), c⟩
  | annotationsDropped {ks s s' c} :
      SameReport ⟨.walk (.annotationsDropped ks s), c⟩ ⟨.walk (.annotationsDropped ks s'), c⟩

/-- The same warnings in the same order. -/
def SameReports : List Report → List Report → Prop := List.Forall₂ SameReport

/-- The same document with the same warnings. -/
def SameDocument (o o' : IdlOutput) : Prop := o.json = o'.json ∧ SameReports o.warnings o'.warnings

/-- The same schemas with the same warnings. -/
def SameSchemata (o o' : SchemataOutput) : Prop :=
  o.schemas = o'.schemas ∧ SameReports o.warnings o'.warnings

/-- Builders with the same import directories that remember the same warnings. -/
def SameBuilder (b b' : Builder) : Prop :=
  b.importDirs = b'.importDirs ∧ SameReports b.accumulated b'.accumulated

/-- Both fail for the same reason or both give the same, and the builders remember the same. -/
inductive SameOutcome {α : Type} (same : α → α → Prop) :
    Except CompileErr α × Builder → Except CompileErr α × Builder → Prop
  | ok {a a' b b'} : same a a' → SameBuilder b b' → SameOutcome same (.ok a, b) (.ok a', b')
  | error {e e' b b'} : SameReason e e' → SameBuilder b b' →
      SameOutcome same (.error e, b) (.error e', b')

end Avdl.Spec.Reformat

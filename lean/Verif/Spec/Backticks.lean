import Verif.Spec.Reformat
/-!
# Texts that differ in backticks around identifiers

For C70: the same tokens and doc comments in the same order, where identifiers may have their parts
in backticks in one text and not in the other.
-/

namespace Avdl.Spec.Backticks
open Spec.Lexing Spec.Layout

/-- A text without backticks. -/
def unquoted (t : List Char) : List Char := t.filter (· ≠ '`')

/-- The same token, or the same identifier with other backticks.  (A keyword in backticks is an
identifier, so it is not the same token as the keyword.) -/
inductive SameToken : Kind × List Char → Kind × List Char → Prop
  | same {t} : SameToken t t
  | identifier {t t'} : unquoted t = unquoted t' → SameToken (.ident, t) (.ident, t')

/-- The two texts, up to U+001A, have the same tokens and doc comments in the same order, apart from
backticks in identifiers, and the same unrecognised pieces. -/
def SameTokens (text text' : String) : Prop :=
  ∃ ps ps', Pieces (cutAtSub text.toList) ps ∧ Pieces (cutAtSub text'.toList) ps' ∧
    List.Forall₂ SameToken (significant ps) (significant ps') ∧
    ps.filter (fun p => p.kind.isNone) = ps'.filter (fun p => p.kind.isNone)

/-- Two files that can both not be read, or differ in layout and backticks only.  Read as JSON, they
give the same. -/
inductive SameFile (json : String → Option Json) : Option String → Option String → Prop
  | unreadable : SameFile json none none
  | read {text text'} : SameTokens text text' → json text = json text' →
      SameFile json (some text) (some text')

/-- Two file systems with the same directories and files, where files differ in layout and backticks
only.  IDL files are read by the lexer and parser of the model. -/
structure Requoted (w w' : World) : Prop where
  parse : w.parse = parseSource
  same : w' = { w with read := w'.read }
  files : ∀ p, SameFile w.parseJson (w.read p) (w'.read p)

end Avdl.Spec.Backticks

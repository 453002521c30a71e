import Verif.Spec.Where
import Verif.Spec.Lexing
import Verif.Spec.Edit
/-!
# Specification: what a warning says and where it points

For C54 and C58.
-/

namespace Avdl.Spec
open Lexing

/-- The line behind a text, counted from 1. -/
def lineOf (before : List Char) : Nat := before.count '\n' + 1

/-- What stands in the last line of a text, backwards. -/
def lastLine (before : List Char) : List Char := before.reverse.takeWhile (· ≠ '\n')

/-- The column behind a text, in characters, counted from 0. -/
def columnOf (before : List Char) : Nat := (lastLine before).length

/-- The pieces of a text, each with all that stands before it. -/
def placed (before : List Char) : List Piece → List (List Char × Piece)
  | [] => []
  | p :: ps => (before, p) :: placed (before ++ p.text) ps

/-- Those that are not recognised. -/
def unrecognised (ps : List Piece) : List (List Char × Piece) :=
  (placed [] ps).filter fun x => x.2.kind.isNone

/-- Those in the token stream. -/
def streamed (ps : List Piece) : List (List Char × Piece) :=
  (placed [] ps).filter fun x => match x.2.kind with
    | some k => !k.skipped
    | none => false

/-- The error of the lexer is about a piece.  It has the piece, its line and its column.  It points at
its first byte, provided that all characters to the left of the piece are in ASCII. -/
structure LexErrorAt (file : String) (x : List Char × Piece) (e : LexError) : Prop where
  text : e.text.toList = x.2.text
  line : e.line = lineOf x.1
  column : e.column = columnOf x.1
  file : e.span.file = file
  span : Ascii (lastLine x.1) → e.span.offset = utf8Len x.1 ∧ e.span.length = 1

/-- The warning is about a doc comment of the token stream, given by its number.  It has the line and
the column of the comment and points at the whole of it. -/
def DocWarningAt (file : String) (ps : List Piece) (i : Nat) (w : Warning) : Prop :=
  ∃ before text, (streamed ps)[i]? = some (before, ⟨some .doc, text⟩) ∧
    w = .outOfPlaceDoc i (lineOf before) (columnOf before) ⟨utf8Len before, utf8Len text, file⟩

/-- The warning points at what it is about. -/
inductive WarningPlaced [CharTables] [FloatTables] (file text : String) : Warning → Prop
  | lexer {ps x e} : Pieces (cutAtSub text.toList) ps → x ∈ unrecognised ps →
      LexErrorAt file x e → WarningPlaced file text (.lexer e)
  | doc {ps i w} : Pieces (cutAtSub text.toList) ps → DocWarningAt file ps i w →
      WarningPlaced file text w
  | walk {x} : WarningAt file text x → WarningPlaced file text (.walk x)

/-- The range marked for a warning is where the thing stands that the warning is about, whatever
positions the warning itself holds: the first byte of the unrecognised text (see `LexErrorAt`), the
whole doc comment, the whole annotation, or the union with its annotations. -/
inductive Marked [CharTables] [FloatTables] (file text : String) : Warning → Span → Prop
  | lexer {ps x e s} : Pieces (cutAtSub text.toList) ps → x ∈ unrecognised ps →
      e.text.toList = x.2.text →
      (Ascii (lastLine x.1) → s.offset = utf8Len x.1 ∧ s.length = 1) → Marked file text (.lexer e) s
  | doc {ps i before comment line column held s} : Pieces (cutAtSub text.toList) ps →
      (streamed ps)[i]? = some (before, ⟨some .doc, comment⟩) → s.offset = utf8Len before →
      s.length = utf8Len comment → Marked file text (.outOfPlaceDoc i line column held) s
  | walk {x node s} : node <:+: sourceTokens file text → WarningAbout x node →
      Covers text.toList s node → Marked file text (.walk x) s

/-! ## Words -/

/-- The label that fits a warning. -/
def fittingLabel : Warning → String
  | .lexer _ => "unrecognized token"
  | .outOfPlaceDoc .. => "out-of-place doc comment"
  | .walk (.annotationsDropped ..) => "annotations ignored here"
  | .walk (.nonStandardAlias ..) => "non-standard alias name"

/-- The phrases by which warnings are told apart. -/
def labelPhrases : List String :=
  ["out-of-place documentation comment", "token recognition error", "Annotations on union types"]

/-- Words of ANTLR's messages that are replaced, wherever they come from. -/
def rewordedPhrases : List String :=
  ["no viable", "expecting", "<EOF>", "IdentifierToken", "StringLiteral", "IntegerLiteral",
    "FloatingPointLiteral"]

/-- The text contains the phrase. -/
def ContainsPhrase (text : String) (phrase : String) : Prop := phrase.toList <:+: text.toList

/-- What a warning must tell: where it is, if it gives a line, and the text that it is about. -/
def subjects : Warning → List (List Char)
  | .lexer e => ["line ".toList ++ Nat.toDigits 10 e.line ++ ":".toList ++ Nat.toDigits 10 e.column,
      "'".toList ++ e.text.toList ++ "'".toList]
  | .outOfPlaceDoc _ line column _ => ["Line ".toList ++ Nat.toDigits 10 line ++ ", char ".toList ++
      Nat.toDigits 10 (column + 1) ++ ":".toList]
  | .walk (.annotationsDropped keys _) => keys.map String.toList
  | .walk (.nonStandardAlias a _) => ["\"".toList ++ a.toList ++ "\"".toList]

/-- The words the warning quotes are none by which the program tells messages apart. -/
def QuotesPlainly : Warning → Prop
  | .lexer e => ∀ ph ∈ rewordedPhrases ++ labelPhrases, ¬ ContainsPhrase e.text ph
  | .walk (.nonStandardAlias a _) => ∀ ph ∈ labelPhrases, ¬ ContainsPhrase a ph
  | _ => True

end Avdl.Spec

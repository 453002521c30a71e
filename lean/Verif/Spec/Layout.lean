import Verif.Spec.Lexing
/-!
# Layout

How tokens, white space and comments may be put one after the other, for C39 and C40.
-/

namespace Avdl.Spec.Layout
open Spec.Lexing

/-- White space, the beginnings of comments and strings, and the signs that are no part of numbers
or names: a word or number ends before each of these characters. -/
def delimiters : List Char := ['\t', '\n', '\x0c', '\r', ' ', '/', '"', '(', ')', '{', '}', '[', ']',
  ':', ';', ',', '@', '=', '?', '<', '>']

/-- The text begins with a delimiter or is empty. -/
def AtDelimiter : List Char → Prop
  | [] => True
  | c :: _ => c ∈ delimiters

/-- The text contains the end of a block comment. -/
def ContainsEnd (s : List Char) : Prop := ∃ x y, s = x ++ '*' :: '/' :: y

/-- `t`, of type `k`, may be followed by `rest`. -/
inductive Separated : Kind → List Char → List Char → Prop
  | string {t rest} : Separated .string t rest
  | doc {t rest} : Separated .doc t rest
  | block {t rest} : Separated .multiLineComment t rest
  | space {t rest} : Separated .ws t rest
  | sign {c t rest} : c ≠ '-' → c ≠ '.' → Separated (.sym c) t rest
  | line {t rest} : (∀ x y, t = x ++ ['\r'] → rest ≠ '\n' :: y) →
      Separated .singleLineComment t rest
  | empty {t rest} : ¬ ContainsEnd rest → Separated .emptyComment t rest
  | word {k t rest} : AtDelimiter rest → k ≠ .singleLineComment → k ≠ .emptyComment →
      Separated k t rest

/-- A text put together from tokens, white space and comments, each of which is a token when it
stands alone. -/
inductive LaidOut : List Char → List Piece → Prop
  | done : LaidOut [] []
  | piece {k t rest ps} : IsToken t k t → Separated k t rest → LaidOut rest ps →
      LaidOut (t ++ rest) (⟨some k, t⟩ :: ps)

/-- What reaches the token stream: everything but white space and ordinary comments. -/
def significant (ps : List Piece) : List (Kind × List Char) :=
  ps.filterMap fun p => match p.kind with
    | some k => if k.skipped then none else some (k, p.text)
    | none => none

/-- Everything was recognised and there is no empty block comment `/**/`. -/
def Clean (ps : List Piece) : Prop :=
  ∀ p ∈ ps, p.kind ≠ none ∧ p.kind ≠ some .emptyComment

end Avdl.Spec.Layout

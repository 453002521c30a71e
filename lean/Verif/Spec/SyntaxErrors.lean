import Verif.DocComments
import Verif.Suggest
/-!
# Specification: places in a text, and braces

Vocabulary for C49 and C50.  Offsets count bytes of the UTF-8 encoding.
-/

namespace Avdl.Spec

/-- The offset is between two characters of the text, or at one of its ends. -/
def Boundary (text : List Char) (offset : Nat) : Prop :=
  ∃ before after, text = before ++ after ∧ utf8Len before = offset

/-- What stands between the quotes of a string: a backslash belongs to the character after it. -/
inductive QuotedText : List Char → Prop
  | nil : QuotedText []
  | char {c s} : c ≠ '"' → c ≠ '\\' → QuotedText s → QuotedText (c :: s)
  | escape {c s} : QuotedText s → QuotedText ('\\' :: c :: s)

/-- A text that does not end within a string. -/
inductive Outside : List Char → Prop
  | nil : Outside []
  | char {c s} : c ≠ '"' → Outside s → Outside (c :: s)
  | string {b s} : QuotedText b → Outside s → Outside ('"' :: b ++ '"' :: s)

/-- A text in which, outside of strings, every brace has its partner. -/
inductive Balanced : List Char → Prop
  | nil : Balanced []
  | char {c s} : c ≠ '"' → c ≠ '{' → c ≠ '}' → Balanced s → Balanced (c :: s)
  | string {b s} : QuotedText b → Balanced s → Balanced ('"' :: b ++ '"' :: s)
  | block {b s} : Balanced b → Balanced s → Balanced ('{' :: b ++ '}' :: s)

/-- The beginning of a string that is not finished. -/
def Unfinished (s : List Char) : Prop :=
  ∃ b, QuotedText b ∧ (s = '"' :: b ∨ s = '"' :: b ++ ['\\'])

/-- At this place there is an opening brace that is never closed, and all braces after it have their
partners. -/
def Unclosed (text : List Char) (offset : Nat) : Prop :=
  ∃ before inner tail, text = before ++ '{' :: inner ++ tail ∧ utf8Len before = offset ∧
    Outside before ∧ Balanced inner ∧ (tail = [] ∨ Unfinished tail)

/-! ## Words -/

/-- A word: letters, digits and underscores. -/
def PlainWord (w : List Char) : Prop :=
  w ≠ [] ∧ ∀ c ∈ w, c.isAlphanum = true ∨ c = '_'

/-- The text does not end with a letter, a digit or an underscore. -/
def WordEnded (s : List Char) : Prop :=
  ∀ y c, s = y ++ [c] → c.isAlphanum = false ∧ c ≠ '_'

/-- White space, possibly none. -/
def OnlyBlank (s : List Char) : Prop := ∀ c ∈ s, isWhitespace c = true

/-- The text ends with the beginning of a declaration: its keyword and its name, which is not one
of the keywords.  `what` is what the declaration is called. -/
def Declaring (text : List Char) (what : String) : Prop :=
  ∃ before keyword blank name blank', text = before ++ String.toList keyword ++ blank ++ name ++ blank' ∧
    (keyword, what) ∈ [("protocol", "protocol"), ("record", "record"), ("error", "error record"),
      ("enum", "enum")] ∧
    WordEnded before ∧ OnlyBlank blank ∧ blank ≠ [] ∧ PlainWord name ∧
    name ∉ ["protocol".toList, "record".toList, "error".toList, "enum".toList, "union".toList] ∧
    OnlyBlank blank'

/-! ## Messages -/

/-- The words occur in the text. -/
def HasWords (words : String) (text : List Char) : Prop :=
  ∃ before after, text = before ++ words.toList ++ after

/-- How a kind of token is named in a message of the parser: a name without special characters, or a
text in single quotes. -/
def TokenName (t : List Char) : Prop :=
  (t ≠ [] ∧ ∀ c ∈ t, c ≠ '\'' ∧ c ≠ ',' ∧ c ≠ '}' ∧ isWhitespace c = false) ∨
    ∃ b, t = '\'' :: b ++ ['\''] ∧ '\'' ∉ b

/-- The same for readers; `none` for tokens that are not to be mentioned. -/
def readable (t : List Char) : Option (List Char) :=
  if t = "DocComment".toList ∨ t = "'\\u001A'".toList then none
  else if t = "<EOF>".toList then some "end of file".toList
  else if t = "IdentifierToken".toList then some "identifier".toList
  else if t = "StringLiteral".toList then some "string literal".toList
  else if t = "IntegerLiteral".toList then some "integer literal".toList
  else if t = "FloatingPointLiteral".toList then some "floating-point literal".toList
  else some t

/-- Texts one after the other, with `separator` between them. -/
def separated (separator : String) : List (List Char) → List Char
  | [] => []
  | [t] => t
  | t :: u :: ts => t ++ separator.toList ++ separated separator (u :: ts)

/-- The end of an enumeration of three or more. -/
def enumerationEnd : List (List Char) → List Char
  | [] => []
  | [t] => "or ".toList ++ t
  | t :: u :: ts => t ++ ", ".toList ++ enumerationEnd (u :: ts)

/-- An enumeration in English: `a`, `a or b`, `a, b, or c`. -/
def enumeration : List (List Char) → List Char
  | [] => []
  | [t] => t
  | [t, u] => t ++ " or ".toList ++ u
  | t :: u :: v :: ts => t ++ ", ".toList ++ enumerationEnd (u :: v :: ts)

/-- `names` are the readable names of the tokens, each one once, in order. -/
def TokenNames (tokens names : List (List Char)) : Prop :=
  names.Sublist (tokens.filterMap readable) ∧ names.Nodup ∧
    ∀ t ∈ tokens, ∀ n, readable t = some n → n ∈ names

end Avdl.Spec

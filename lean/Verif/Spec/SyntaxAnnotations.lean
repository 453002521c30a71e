/-!
# Specification: annotations and names in the messages of the parser

The parser quotes what it has read without the blanks.  Vocabulary for C50.
-/

namespace Avdl.Spec

/-- A letter, a digit, an underscore or a dash. -/
def NameChar (c : Char) : Prop := c.isAlphanum = true ∨ c = '_' ∨ c = '-'

/-- In small letters. -/
def small (s : List Char) : List Char := s.map Char.toLower

/-- The words that may follow the name of an annotation and run into it. -/
def followingWords : List String :=
  ["protocol", "record", "error", "enum", "fixed", "import", "schema", "namespace", "boolean",
   "int", "long", "float", "double", "string", "bytes", "null", "array", "map", "union", "void",
   "oneway", "throws", "date", "time_ms", "timestamp_ms", "local_timestamp_ms", "uuid"]

/-- The words that begin a declaration. -/
def declarationWords : List String :=
  ["record", "enum", "fixed", "error", "protocol", "import", "schema"]

/-- The parser has read `@` and the name, then the word (or nothing) that ran into it, and something
else; the name can be told from the word. -/
structure AtName (message name word : List Char) : Prop where
  read : ∃ before after, message =
      "no viable alternative at input '".toList ++ before ++ '@' :: name ++ word ++ after ++ ['\''] ∧
    '\'' ∉ before ∧ '\'' ∉ after ∧ '@' ∉ after ∧
    ∀ c rest, after = c :: rest → ¬ NameChar c ∧ c ≠ '('
  name_ne : name ≠ []
  chars : ∀ c ∈ name ++ word, NameChar c
  word_ok : small word ∈ [] :: followingWords.map String.toList
  apart : ∀ a, ∀ k ∈ followingWords, a ≠ [] → small (name ++ word) = a ++ k.toList →
    k.toList = small word

/-- A name as used for enum symbols: letters, digits and underscores, no digit first. -/
def SymbolName (w : List Char) : Prop :=
  ∃ c cs, w = c :: cs ∧ (c.isAlpha = true ∨ c = '_') ∧ (∀ d ∈ cs, d.isAlphanum = true ∨ d = '_') ∧
    w ∉ ["null".toList, "true".toList, "false".toList]

end Avdl.Spec

import Verif.Compiler
import Verif.SyntaxErrors
/-!
# What is shown of a warning

Model of the messages and labels of warnings, /repo/src/reader.rs 90-248 and 2070-2077.
-/

namespace Avdl

/-- What ANTLR's lexer tells the listener about unrecognised text (see the test at
/repo/src/reader.rs 6893-6906). -/
def lexMessage (text : String) : List Char :=
  "token recognition error at: '".toList ++ text.toList ++ "'".toList

/-- `Warning::message`: /repo/src/reader.rs 99-207 for those of the reader; for those of the lexer
what the listener makes of the message, lines 1884-1902 and 2074.  `none` is a panic. -/
def Warning.message : Warning → Option (List Char)
  | .lexer e => (listen none ⟨none, e.line, e.column, lexMessage e.text⟩).map (·.message)
  | .outOfPlaceDoc _ line column _ =>
      some ("Line ".toList ++ Nat.toDigits 10 line ++ ", char ".toList ++
        Nat.toDigits 10 (column + 1) ++ (": Ignoring out-of-place documentation comment.\n" ++
          "Did you mean to use a multiline comment ( /* ... */ ) instead?").toList)
  | .walk (.annotationsDropped keys _) =>
      some ("Annotations on union types are not supported and will be ignored: ".toList ++
        joinWith ", " (keys.map String.toList))
  | .walk (.nonStandardAlias a _) =>
      some ("Alias \"".toList ++ a.toList ++ ("\" is not a valid Avro name. " ++
        "While any string is accepted to allow schema evolution to " ++
        "correct illegal names in old schemata, aliases should ideally be valid names.").toList)

/-- The label under the marked text, chosen by the words of the message, /repo/src/reader.rs
229-247. -/
def labelOf (message : List Char) : String :=
  if containsStr "out-of-place documentation comment" message then "out-of-place doc comment"
  else if containsStr "token recognition error" message then "unrecognized token"
  else if containsStr "Annotations on union types" message then "annotations ignored here"
  else if containsStr "is not a valid Avro name" message then "non-standard alias name"
  else "here"

/-- `labels`, /repo/src/reader.rs 229-247.  `none` is a panic. -/
def Warning.label (w : Warning) : Option String := w.message.map labelOf

/-- The position of a warning. -/
def Warning.span : Warning → Option Span
  | .lexer e => some e.span
  | .outOfPlaceDoc _ _ _ s => some s
  | .walk (.nonStandardAlias _ s) => s
  | .walk (.annotationsDropped _ s) => s

end Avdl

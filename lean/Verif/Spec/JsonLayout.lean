/-!
# Specification: the layout of a written document

Every element of an array and every member of an object begins a line of its own; what stands inside
of brackets is moved to the right by two.  Vocabulary for C75.
-/

namespace Avdl.Spec

/-- The text, moved to the right by two, except for its first line. -/
def moved (text : String) : String :=
  String.ofList (text.toList.flatMap fun c => if c = '\n' then ['\n', ' ', ' '] else [c])

/-- The texts, each on a line of its own and moved to the right, with commas between them. -/
def lines : List String → String
  | [] => ""
  | [t] => "\n  " ++ moved t
  | t :: ts => "\n  " ++ moved t ++ "," ++ lines ts

/-- The texts between brackets; the closing bracket is on a line of its own. -/
def bracketed (opening closing : String) (parts : List String) : String :=
  opening ++ lines parts ++ "\n" ++ closing

end Avdl.Spec

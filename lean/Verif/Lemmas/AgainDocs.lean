import Verif.Props.Reimport
/-!
# Example for C69: the extracted documents
-/

namespace Avdl.Props
open Spec

attribute [local instance] asciiTables exFloats exCases exJsonFloats

/-- What is extracted from the protocol of the example. -/
def exDocs : List (String × Json) :=
  match extractImpl 9 (exCompiled exOriginal) with
  | .ok res => res.schemas
  | .error _ => []

theorem exDocs_checks : ((extractImpl 9 (exCompiled exOriginal)).toBool &&
    exDocs.map Prod.fst == ["E", "R", "F"]) = true := by decide +kernel

end Avdl.Props

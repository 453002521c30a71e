import Verif.Names
/-!
# Specification: legal Avro names
-/

namespace Avdl.Spec

/-- A letter or underscore followed by letters, digits or underscores. -/
def LegalName [CharTables] (name : String) : Prop :=
  ∃ c cs, name.toList = c :: cs ∧ (CharTables.alphabetic c = true ∨ c = '_') ∧
    ∀ d ∈ cs, CharTables.alphanumeric d = true ∨ d = '_'

/-- Legal names joined by dots, or nothing at all. -/
def LegalNamespace [CharTables] (ns : Option String) : Prop :=
  ns = none ∨ ns = some "" ∨
    ∃ segs : List String, segs ≠ [] ∧ (∀ s ∈ segs, LegalName s) ∧
      ns = some (String.intercalate "." segs)

end Avdl.Spec

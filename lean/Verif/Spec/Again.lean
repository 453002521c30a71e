import Verif.Spec.Reimport
/-!
# Specification: the documents of a compilation
-/

namespace Avdl.Spec

/-- Among the extracted documents `docs`, the one of the type with this full name. -/
def DocumentOf (out : CompileOutput) (docs : List (String × Json)) (full : String)
    (doc : String × Json) : Prop := (full, doc) ∈ out.registry.names.zip docs

/-- The second extraction has the documents the first one has for the given names, and no others. -/
def SameDocumentsFor (names : String → Prop) (out : CompileOutput) (docs : List (String × Json))
    (out' : CompileOutput) (docs' : List (String × Json)) : Prop :=
  ∀ full doc, DocumentOf out' docs' full doc ↔ names full ∧ DocumentOf out docs full doc

end Avdl.Spec

/-!
# Which files of a directory are Avro IDL files

Written without reference to the code.
-/

namespace Avdl.Spec

/-- A file name of the form `stem.avdl`. -/
def AvdlName (name : String) : Prop := ∃ stem : String, stem ≠ "" ∧ name = stem ++ ".avdl"

end Avdl.Spec

import Verif.Compiler
/-!
# Import directories

For C72: what additional import directories may change.
-/

namespace Avdl.Spec.SearchPath

/-- The compilation fails because an imported file is in none of the directories. -/
inductive MissingImport : CompileErr → Prop
  | notFound {file searched} : MissingImport (.importNotFound file searched)
  | at_ {span e} : MissingImport e → MissingImport (.importFailed span e)

/-- The outcome is a failure because an imported file is missing. -/
def Missing {α : Type} (r : Except CompileErr α × Builder) : Prop :=
  ∃ e, r.1 = .error e ∧ MissingImport e

/-- The same outcome and the same warnings kept in the builder. -/
def SameOutcome {α : Type} (r r' : Except CompileErr α × Builder) : Prop :=
  r'.1 = r.1 ∧ r'.2.accumulated = r.2.accumulated

/-- A directory in which no file is found. -/
def Empty (w : World) (d : Path) : Prop := ∀ file, w.exists_ (w.join d file) = false

end Avdl.Spec.SearchPath

import Verif.Reader
/-!
# Specification: annotations

Which annotation wins when a name is used more than once, and what it means for an output object
to show a construct's structural entries and its annotations.
-/

namespace Avdl.Spec

/-- The value of the last annotation called `name`. -/
def lastAnnotation (name : String) : List Annot → Option JVal
  | [] => none
  | a :: as =>
      match lastAnnotation name as with
      | some v => some v
      | none => if identifierText a.name = name then some a.value else none

/-- The value the annotations give to a name. -/
def annotationValue [FloatTables] (as : List Annot) (k : String) : Option Json :=
  (lastAnnotation k as).bind fun v => (walkJson v).toOption

/-- Annotation names that are not custom properties but set the namespace, aliases or sort order
of the annotated construct. -/
def Special (ctx : PropCtx) (name : String) : Prop :=
  (ctx.withNamespace = true ∧ name = "namespace") ∨ (ctx.withAliases = true ∧ name = "aliases") ∨
    (ctx.withOrder = true ∧ name = "order")

instance (ctx : PropCtx) (name : String) : Decidable (Special ctx name) := by
  unfold Special; infer_instance

/-- The object has exactly the structural entries given (`none`: no entry) and, under their own
names, the custom properties. -/
structure Shows (o : JMap) (entries : List (String × Option Json)) (ps : Props) : Prop where
  structural : ∀ kv ∈ entries, o.get? kv.1 = kv.2
  custom : ∀ kv ∈ ps, o.get? kv.1 = some kv.2
  nothingElse : ∀ k, k ∉ entries.map Prod.fst → k ∉ ps.map Prod.fst → o.get? k = none

end Avdl.Spec

import Verif.Spec.CompileOk
import Verif.Lemmas.BareReader
/-!
# Specification: what the schema of a type depends on
-/

namespace Avdl.Spec

/-- The name has the same definition, up to source positions, in both, or in neither. -/
def SameDefinition (r r' : List (String × Schema)) (x : String) : Prop :=
  (definition r x).map Schema.bare = (definition r' x).map Schema.bare

/-- The names on which the schema of a type depends: those of the types it mentions, directly or
through their definitions. -/
def SameWithin (r r' : List (String × Schema)) (t : Schema) : Prop :=
  ∀ x, Mentions (definition r) t x → SameDefinition r r' x

/-- The lists have the same types, up to source positions, in the same order. -/
def SameTypesInOrder (r r' : List (String × Schema)) : Prop :=
  r.map (fun kt => (kt.1, kt.2.bare)) = r'.map fun kt => (kt.1, kt.2.bare)

/-- The protocols differ at most in their types and in source positions. -/
def SameButTypes (p p' : Protocol) : Prop :=
  p.name = p'.name ∧ p.ns = p'.ns ∧ p.doc = p'.doc ∧ p.props = p'.props ∧
  p.messages.map bareMessage = p'.messages.map bareMessage

end Avdl.Spec

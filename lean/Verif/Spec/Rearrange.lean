import Verif.Spec.Split
import Verif.Spec.Local
/-!
# Specification: the same declarations in another order

Vocabulary for C67.
-/

namespace Avdl.Spec

/-- The imports among the declarations. -/
def importItems (items : List DeclItem) : List DeclItem :=
  items.filter fun d => match d with
    | .import_ _ => true
    | .type .. => false

/-- The types among the declarations. -/
def declaredTypes (items : List DeclItem) : List Schema :=
  items.filterMap fun d => match d with
    | .type s .. => some s
    | .import_ _ => none

/-- The same declarations, up to source positions: the imports in the same order, the types in any
order, and anywhere between the imports. -/
structure Rearranged (items items' : List DeclItem) : Prop where
  imports : SameDecls (importItems items) (importItems items')
  types : ((declaredTypes items).map Schema.bare).Perm ((declaredTypes items').map Schema.bare)

/-- The types the compilation meets as declarations in IDL files. -/
def idlTypes (es : List Event) : List Schema :=
  es.filterMap fun ev => match ev with
    | .type s .. => some s
    | _ => none

/-- The types the compilation meets in JSON documents. -/
def importedTypes (es : List Event) : List Schema :=
  es.flatMap fun ev => match ev with
    | .type .. => []
    | ev => ev.types

section
variable [CharTables] [FloatTables] [CaseTables]

/-- The two texts are the same but for the order of their type declarations, and where these stand
among the imports. -/
structure SameInAnyOrder (w : World) (text name text' name' : String) (file file' : IdlFile)
    (decls decls' : List DeclItem) : Prop where
  read : ∃ ws, parseIdl w text name = .ok (file, decls, ws)
  read' : ∃ ws, parseIdl w text' name' = .ok (file', decls', ws)
  header : SameHeader file file'
  messages : ∀ n, AgreeOnMessage file.messages file'.messages n
  decls : Rearranged decls decls'

end

/-- The lists have the same types, up to source positions, in any order. -/
def SameTypesAnyOrder (r r' : List (String × Schema)) : Prop :=
  (r.map fun kt => (kt.1, kt.2.bare)).Perm (r'.map fun kt => (kt.1, kt.2.bare))

end Avdl.Spec

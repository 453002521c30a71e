import Verif.Spec.RoundTrip
import Verif.Spec.JsonText
import Verif.Spec.Compile
/-!
# Specification: types and documents that survive writing and reading

What remains of the conditions of `Spec/RoundTrip.lean` and `Spec/JsonText.lean` for the outcome
of a compilation.  The other conditions are proved to hold for everything the compiler produces.
-/

namespace Avdl.Spec

/-- Condition on a type: an annotated primitive does not name a logical type; a logical type has no
annotations of its own that play a role in its encoding, and a decimal has a positive precision; no
alias `.X`. -/
def FaithfulNode : Schema → Prop
  | .annotated _ ps => ¬ NamesLogical ps.get?
  | .logical lt ps => ps.Avoids ["logicalType", "precision", "scale"] ∧
      ∀ p s, lt = .decimal p s → 1 ≤ p
  | .record _ _ _ _ _ al _ | .enum _ _ _ _ _ al _ | .fixed _ _ _ _ al _ => ∀ a ∈ al, AliasOk a
  | _ => True

/-- All types in it satisfy the condition. -/
def Faithful (s : Schema) : Prop := s.Everywhere (fun _ => FaithfulNode) (fun _ => True) ""

/-- The same for the types in a message. -/
structure FaithfulMessage (m : Message) : Prop where
  request : ∀ f ∈ m.request, Faithful f.schema
  response : Faithful m.response
  errors : ∀ es, m.errors = some es → ∀ s ∈ es, Faithful s

mutual
/-- The floating point numbers of a document are read as the same numbers. -/
def FloatsSurvive [JsonFloats] : Json → Prop
  | .num (.float neg m e) => Survives (.float neg m e)
  | .arr l => FloatsSurviveList l
  | .obj m => FloatsSurviveMap m
  | _ => True
/-- The same for lists. -/
def FloatsSurviveList [JsonFloats] : List Json → Prop
  | [] => True
  | j :: l => FloatsSurvive j ∧ FloatsSurviveList l
/-- The same for the members of an object. -/
def FloatsSurviveMap [JsonFloats] : List (String × Json) → Prop
  | [] => True
  | (_, j) :: m => FloatsSurvive j ∧ FloatsSurviveMap m
end

/-- Two registries have the same types: the same names, and under each name the same definition. -/
structure SameTypes (r r' : Registry) : Prop where
  names : r'.names.Perm r.names
  types : ∀ full t', (full, t') ∈ r' → ∃ t, (full, t) ∈ r ∧ SameDef t t'

/-- The second registry has the same types as the first one for the given names, and no others. -/
structure SameTypesFor (names : String → Prop) (r r' : Registry) : Prop where
  distinct : r'.names.Nodup
  names : ∀ x, x ∈ r'.names ↔ names x
  types : ∀ full t', (full, t') ∈ r' → ∃ t, (full, t) ∈ r ∧ SameDef t t'

/-- The same messages. -/
structure SameMessages (ms ms' : List (String × Message)) : Prop where
  names : (ms'.map Prod.fst).Perm (ms.map Prod.fst)
  messages : ∀ name m', (name, m') ∈ ms' → ∃ m, (name, m) ∈ ms ∧ SameMessage m m'

/-- A protocol without declarations and messages of its own, that imports a file. -/
def OnlyImports [CharTables] [FloatTables] [CaseTables] (w : World) (text name : String)
    (kind : ImportKind) (file : String) : Prop :=
  ∃ q i ws, parseIdl w text name = .ok (.protocol q, [.import_ i], ws) ∧ i.kind = kind ∧
    i.path = file ∧ q.messages = []

/-- The file contains the document as the program writes it, with or without a line feed after
it. -/
def Contains [JsonFloats] (w : World) (f : Path) (j : Json) : Prop :=
  w.read f = some (prettyJson j) ∨ w.read f = some (prettyJson j ++ "\n")

end Avdl.Spec

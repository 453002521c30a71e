import Verif.Spec.OnePass
import Verif.Spec.WellFormed
import Verif.Spec.LogicalType
import Verif.Spec.Reorder
/-!
# Specification: the same types, up to representation details

`Same s s'`: the two schemas, in which named types are only referred to, mean the same in Avro.
Representation details are: the order of annotations, `null` branch flags and source spans; no
namespace or an empty one; the default field order written or left out; a primitive with an empty
set of annotations; an alias written with or without the namespace it is in.
-/

namespace Avdl.Spec

/-- The same namespace; none and the empty one are the same. -/
def SameNs (ns ns' : Option String) : Prop := nsStr ns = nsStr ns'

mutual
inductive Same : Schema → Schema → Prop
  | prim {p} : Same (.prim p) (.prim p)
  | bare {k} : Same (.annotated k []) (.prim k)
  | annotated {k ps ps'} : SameMap ps ps' → Same (.annotated k ps) (.annotated k ps')
  | logical {lt ps ps'} : SameMap ps ps' → Same (.logical lt ps) (.logical lt ps')
  | array {i i' ps ps'} : Same i i' → SameMap ps ps' → Same (.array i ps) (.array i' ps')
  | map {i i' ps ps'} : Same i i' → SameMap ps ps' → Same (.map i ps) (.map i' ps')
  | union {ts ts' b b'} : SameList ts ts' → Same (.union ts b) (.union ts' b')
  | ref {n ns ns' ps ps' sp sp'} : SameNs ns ns' → SameMap ps ps' →
      Same (.ref n ns ps sp) (.ref n ns' ps' sp')
inductive SameList : List Schema → List Schema → Prop
  | nil : SameList [] []
  | cons {s s' ss ss'} : Same s s' → SameList ss ss' → SameList (s :: ss) (s' :: ss')
end

/-- The same sort order of a field; ascending is the default. -/
def SameOrder (o o' : Option FieldOrder) : Prop := o.getD .ascending = o'.getD .ascending

/-- The same field. -/
structure SameField (f f' : Field) : Prop where
  name : f.name = f'.name
  type : Same f.schema f'.schema
  doc : f.doc = f'.doc
  default : f.default = f'.default
  order : SameOrder f.order f'.order
  aliases : f.aliases = f'.aliases
  props : SameMap f.props f'.props

/-- The same alias of a type in a namespace: as it was, or without this namespace, which is
implied.  The name of a predefined type keeps it. -/
def SameAlias (ns : Option String) (a a' : String) : Prop :=
  a' = a ∨ (nsStr ns ≠ "" ∧ a = nsStr ns ++ "." ++ a' ∧ '.' ∉ a'.toList ∧
    a' ∉ primitiveTypeNames ∧ a' ∉ complexTypeNames)

/-- The same aliases of a type in a namespace. -/
def SameAliases (ns : Option String) (al al' : List String) : Prop :=
  Matching (SameAlias ns) al al'

/-- The same definition of a named type. -/
inductive SameDef : Schema → Schema → Prop
  | record {n ns ns' d fs fs' e al al' ps ps'} : SameNs ns ns' → Matching SameField fs fs' →
      SameAliases ns al al' → SameMap ps ps' →
      SameDef (.record n ns d fs e al ps) (.record n ns' d fs' e al' ps')
  | enum {n ns ns' d sy df al al' ps ps'} : SameNs ns ns' → SameAliases ns al al' →
      SameMap ps ps' → SameDef (.enum n ns d sy df al ps) (.enum n ns' d sy df al' ps')
  | fixed {n ns ns' d sz al al' ps ps'} : SameNs ns ns' → SameAliases ns al al' →
      SameMap ps ps' → SameDef (.fixed n ns d sz al ps) (.fixed n ns' d sz al' ps')

/-- The same message. -/
structure SameMessage (m m' : Message) : Prop where
  doc : m.doc = m'.doc
  props : SameMap m.props m'.props
  request : Matching SameField m.request m'.request
  response : Same m.response m'.response
  errors : (m.errors = none ∧ m'.errors = none) ∨
    ∃ es es', m.errors = some es ∧ m'.errors = some es' ∧ SameList es es'
  oneWay : m.oneWay = m'.oneWay

/-! ## Conditions -/

/-- A set of annotations names a logical type of the table, a decimal with a precision. -/
def NamesLogical (value : String → Option Json) : Prop :=
  ∃ n, value "logicalType" = some (.str n) ∧ n ∈ logicalBases.map Prod.fst ∧
    (n = "decimal" → ∃ p : Nat, p < 2 ^ 32 ∧ value "precision" = some (.num (.int p)))

/-- The alias is not of the form `.X`. -/
def AliasOk (a : String) : Prop := ∀ x : String, '.' ∉ x.toList → a ≠ "." ++ x

/-- Condition on a schema for surviving export and import: annotations are maps; an annotated
primitive does not name a logical type; a logical type has no annotations of its own that play a
role in its encoding, and its numbers are in range; references carry no annotations. -/
def InNode : Schema → Prop
  | .prim _ | .union .. => True
  | .record _ _ _ _ _ al ps | .enum _ _ _ _ _ al ps => ps.Wf ∧ ∀ a ∈ al, AliasOk a
  | .fixed _ _ _ size al ps => ps.Wf ∧ (∀ a ∈ al, AliasOk a) ∧ size < 2 ^ 32
  | .array _ ps | .map _ ps => ps.Wf
  | .annotated _ ps => ps.Wf ∧ ¬ NamesLogical ps.get?
  | .logical lt ps => ps.Wf ∧ ps.Avoids ["logicalType", "precision", "scale"] ∧
      ∀ p s, lt = .decimal p s → 1 ≤ p ∧ p < 2 ^ 32 ∧ s < 2 ^ 32
  | .ref _ _ ps _ => ps = []

/-- Condition on a field. -/
def InField (f : Field) : Prop := f.props.Wf

/-- A schema all of whose nodes and fields satisfy the conditions.  (They do not depend on the
namespace.) -/
def InOk (s : Schema) : Prop := s.Everywhere (fun _ => InNode) InField ""

/-- The conditions for a message. -/
structure InMessage (m : Message) : Prop where
  props : m.props.Wf
  request : ∀ f ∈ m.request, InField f ∧ InOk f.schema
  response : InOk m.response
  errors : ∀ es, m.errors = some es → ∀ s ∈ es, InOk s

end Avdl.Spec

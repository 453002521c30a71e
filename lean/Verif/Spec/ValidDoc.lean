import Verif.Spec.AvroJson
import Verif.Spec.Reimport
import Verif.Spec.Hoist
/-!
# Specification: valid documents, and documents that describe given types

The shape of JSON schemas and protocols that the Avro specification demands.  Vocabulary for C60.
Names and namespaces are written separately: no `name` contains a dot.
-/

namespace Avdl.Spec

/-- What definitions of named types have in common. -/
structure ValidHead (obj : JMap) : Prop where
  name : ∃ n, obj.get? "name" = some (.str n) ∧ DotFree n
  ns : ∃ ns, OptText obj "namespace" ns
  doc : ∃ d, OptText obj "doc" d
  aliases : ∃ al, OptTexts obj "aliases" al

mutual
/-- A JSON schema.  Objects for primitive types moreover satisfy `P`. -/
inductive ValidType (P : Prim → JMap → Prop) : Json → Prop
  | name {s} : ValidType P (.str s)
  | union {l} : ValidTypes P l → ValidType P (.arr l)
  | record {obj : JMap} {kind l} : obj.get? "type" = some (.str kind) →
      kind = "record" ∨ kind = "error" → ValidHead obj → obj.get? "fields" = some (.arr l) →
      ValidFields P l → ValidType P (.obj obj)
  | enum {obj : JMap} {symbols dflt} : obj.get? "type" = some (.str "enum") → ValidHead obj →
      obj.get? "symbols" = some (.arr (List.map Json.str symbols)) → OptText obj "default" dflt →
      ValidType P (.obj obj)
  | fixed {obj : JMap} {size : Nat} : obj.get? "type" = some (.str "fixed") → ValidHead obj →
      obj.get? "size" = some (.num (.int size)) → size < 2 ^ 32 → ValidType P (.obj obj)
  | array {obj : JMap} {j} : obj.get? "type" = some (.str "array") → obj.get? "items" = some j →
      ValidType P j → ValidType P (.obj obj)
  | map {obj : JMap} {j} : obj.get? "type" = some (.str "map") → obj.get? "values" = some j →
      ValidType P j → ValidType P (.obj obj)
  | primitive {obj : JMap} {p : Prim} : obj.get? "type" = some (.str p.asStr) → P p obj →
      ValidType P (.obj obj)
/-- The branches of a union, or the errors of a message. -/
inductive ValidTypes (P : Prim → JMap → Prop) : List Json → Prop
  | nil : ValidTypes P []
  | cons {j js} : ValidType P j → ValidTypes P js → ValidTypes P (j :: js)
/-- The fields of a record, or the parameters of a message. -/
inductive ValidFields (P : Prim → JMap → Prop) : List Json → Prop
  | nil : ValidFields P []
  | cons {obj : JMap} {name j doc order al js} : obj.get? "name" = some (.str name) →
      obj.get? "type" = some j → ValidType P j → OptText obj "doc" doc → OrderDoc obj order →
      OptTexts obj "aliases" al → ValidFields P js → ValidFields P (.obj obj :: js)
end

/-- A JSON message. -/
inductive ValidMessage (P : Prim → JMap → Prop) : Json → Prop
  | mk {obj : JMap} {doc l j} : OptText obj "doc" doc → obj.get? "request" = some (.arr l) →
      ValidFields P l → obj.get? "response" = some j → ValidType P j →
      obj.get? "errors" = none ∨ (∃ es, obj.get? "errors" = some (.arr es) ∧ ValidTypes P es) →
      obj.get? "one-way" = none ∨ obj.get? "one-way" = some (.bool true) →
      ValidMessage P (.obj obj)

/-- A JSON protocol.  Everything listed among the types is written out, not a name. -/
inductive ValidProtocol (P : Prim → JMap → Prop) : Json → Prop
  | mk {obj : JMap} {name ns doc types msgs} : obj.get? "protocol" = some (.str name) →
      OptText obj "namespace" ns → OptText obj "doc" doc →
      obj.get? "types" = some (.arr types) → ValidTypes P types → (∀ s, .str s ∉ types) →
      obj.get? "messages" = some (.obj msgs) → (msgs.map Prod.fst).Nodup →
      (∀ kv ∈ msgs, ValidMessage P kv.2) → ValidProtocol P (.obj obj)

/-- A document with a valid schema. -/
def ValidSchemaDoc (j : Json) : Prop := ValidType (fun _ _ => True) j

/-- A document with a valid protocol. -/
def ValidProtocolDoc (j : Json) : Prop := ValidProtocol (fun _ _ => True) j

/-! ## What a document describes -/

/-- The definitions in `ss`, at any depth, are those of `types`, each once. -/
structure DefineSame (types ss : List Schema) : Prop where
  names : ((ss.flatMap definitions).filterMap Schema.fullName?).Perm
    (types.filterMap Schema.fullName?)
  types : ∀ t' ∈ ss.flatMap definitions, ∃ t ∈ types, SameDef t (outlineDef t')

/-- The definitions in `s'`, at any depth, are those of the given names, each once and as in the
table. -/
structure DefineOnly (names : String → Prop) (types : List Schema) (s' : Schema) : Prop where
  distinct : ((definitions s').filterMap Schema.fullName?).Nodup
  names : ∀ x, x ∈ (definitions s').filterMap Schema.fullName? ↔ names x
  types : ∀ t' ∈ definitions s', ∃ t ∈ types, SameDef t (outlineDef t')

/-- The members of a document that belong to the protocol itself. -/
structure DescribesHead (obj : JMap) (p : Protocol) : Prop where
  name : obj.get? "protocol" = some (.str p.name)
  ns : ∃ ns, OptText obj "namespace" ns ∧ SameNs p.ns ns
  doc : OptText obj "doc" p.doc
  props : SameMap p.props
    (otherMembers obj ["protocol", "namespace", "doc", "types", "messages"])

/-- In Avro the scale of a decimal is at most its precision. -/
def DecimalNode (s : Schema) : Prop := ∀ p sc ps, s = .logical (.decimal p sc) ps → sc ≤ p

/-- All types in it satisfy the condition. -/
def DecimalsOk (s : Schema) : Prop := s.Everywhere (fun _ => DecimalNode) (fun _ => True) ""

/-- The same for the types in a message. -/
structure DecimalsOkMessage (m : Message) : Prop where
  request : ∀ f ∈ m.request, DecimalsOk f.schema
  response : DecimalsOk m.response
  errors : ∀ es, m.errors = some es → ∀ s ∈ es, DecimalsOk s

end Avdl.Spec

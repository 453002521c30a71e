import Verif.Spec.Reading
import Verif.Spec.LegalName
import Verif.Compiler
/-!
# Specification: the rules of Avro that types and messages must obey

Apart from the shape of documents (`ValidDoc`): names, repetitions, unions.  Vocabulary for C63.
-/

namespace Avdl.Spec

/-- The rules for one definition, field or union.  `names` says which names are legal inside a
type: those of fields and of enum symbols. -/
def ObeysRules [CharTables] (names : String → Prop) : Schema → Prop
  | .record n ns _ fs _ _ _ => (LegalName n ∧ LegalNamespace ns) ∧
      (fs.map Field.name).Nodup ∧ ∀ f ∈ fs, names f.name
  | .enum n ns _ symbols dflt _ _ => (LegalName n ∧ LegalNamespace ns) ∧
      symbols.Nodup ∧ (∀ s ∈ symbols, names s) ∧ ∀ d, dflt = some d → d ∈ symbols
  | .fixed n ns _ _ _ _ => LegalName n ∧ LegalNamespace ns
  | .union ts _ => LegalUnion ts
  | _ => True

/-- The rules are obeyed everywhere in a schema. -/
def LegalSchema [CharTables] (names : String → Prop) (s : Schema) : Prop :=
  ∀ t, Occurs t s → ObeysRules names t

/-- The rules for a message. -/
structure LegalMessage [CharTables] (names : String → Prop) (m : Message) : Prop where
  parameters : (m.request.map Field.name).Nodup ∧ ∀ f ∈ m.request, names f.name
  request : ∀ f ∈ m.request, LegalSchema names f.schema
  response : LegalSchema names m.response
  errors : ∀ es, m.errors = some es → ∀ s ∈ es, LegalSchema names s
  /-- Nothing comes back from a one-way message. -/
  oneWay : m.oneWay = true → m.response = .prim .null

/-- The rules for all that has been compiled.  Names of messages are free in Avro. -/
structure LegalOutput [CharTables] (names : String → Prop) (out : CompileOutput) : Prop where
  types : ∀ kt ∈ out.registry, LegalSchema names kt.2
  messages : ∀ p, out.file = .protocol p → ∀ nm ∈ p.messages, LegalMessage names nm.2
  main : ∀ s, out.file = .schema s → LegalSchema names s

/-- The names of fields, parameters and symbols written in the output. -/
inductive InnerName (out : CompileOutput) (x : String) : Prop
  | field {kt n ns d fs e al ps f} : kt ∈ out.registry →
      Occurs (.record n ns d fs e al ps) kt.2 → f ∈ fs → x = f.name → InnerName out x
  | symbol {kt n ns d sy df al ps} : kt ∈ out.registry →
      Occurs (.enum n ns d sy df al ps) kt.2 → x ∈ sy → InnerName out x
  | parameter {p nm f} : out.file = .protocol p → nm ∈ p.messages → f ∈ nm.2.request →
      x = f.name → InnerName out x

end Avdl.Spec

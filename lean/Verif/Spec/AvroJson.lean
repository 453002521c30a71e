import Verif.Spec.Source
import Verif.Spec.RoundTrip
/-!
# Specification: what JSON schemas and protocols mean

The meaning of the JSON documents that can be imported, as the Avro specification defines it.
Vocabulary for C42.  The null namespace is written `none` or `some ""`.
-/

namespace Avdl.Spec

/-- The members of an object other than the given ones. -/
def otherMembers (obj : JMap) (names : List String) : Props :=
  obj.filter fun kv => !(names.contains kv.1)

/-- An optional member that is a string. -/
inductive OptText (obj : JMap) (k : String) : Option String → Prop
  | absent : obj.get? k = none → OptText obj k none
  | present {s} : obj.get? k = some (.str s) → OptText obj k (some s)

/-- An optional member that is an array of strings. -/
inductive OptTexts (obj : JMap) (k : String) : List String → Prop
  | absent : obj.get? k = none → OptTexts obj k []
  | present {l} : obj.get? k = some (.arr (l.map .str)) → OptTexts obj k l

/-- Name and namespace of a definition inside namespace `encl`.  If the name has a dot, the
namespace attribute is ignored. -/
inductive DocName (encl : Option String) (obj : JMap) : String → Option String → Prop
  | dotted {pre name} : obj.get? "name" = some (.str (pre ++ "." ++ name)) → DotFree name →
      DocName encl obj name (some pre)
  | given {name a} : obj.get? "name" = some (.str name) → DotFree name →
      obj.get? "namespace" = some (.str a) → DocName encl obj name (some a)
  | inherited {name} : obj.get? "name" = some (.str name) → DotFree name →
      obj.get? "namespace" = none → DocName encl obj name encl

/-- The attributes make the primitive a logical type. -/
inductive LogicalDoc (obj : JMap) (p : Prim) : LogicalType → Prop
  | simple {lt} : obj.get? "logicalType" = some (.str lt.name) → lt.base = p →
      (∀ a b, lt ≠ .decimal a b) → LogicalDoc obj p lt
  | decimal {precision scale : Nat} : obj.get? "logicalType" = some (.str "decimal") → p = .bytes →
      obj.get? "precision" = some (.num (.int precision)) → 1 ≤ precision → precision < 2 ^ 32 →
      (obj.get? "scale" = none ∧ scale = 0) ∨ obj.get? "scale" = some (.num (.int scale)) →
      scale ≤ precision → LogicalDoc obj p (.decimal precision scale)

/-- The sort order of a field. -/
inductive OrderDoc (obj : JMap) : Option FieldOrder → Prop
  | absent : obj.get? "order" = none → OrderDoc obj none
  | ascending : obj.get? "order" = some (.str "ascending") → OrderDoc obj (some .ascending)
  | descending : obj.get? "order" = some (.str "descending") → OrderDoc obj (some .descending)
  | ignore : obj.get? "order" = some (.str "ignore") → OrderDoc obj (some .ignore)

mutual
/-- The schema a JSON document inside namespace `encl` stands for. -/
inductive SchemaDoc : Option String → Json → Schema → Prop
  | prim {encl p} : SchemaDoc encl (.str p.asStr) (.prim p)
  | ref {encl s name ns} : s ∉ primitives → ReferenceName encl s name ns →
      SchemaDoc encl (.str s) (.ref name ns [] none)
  | union {encl l ts} : SchemaDocs encl l ts → SchemaDoc encl (.arr l) (.union ts false)
  | record {encl} {obj : JMap} {name ns doc l fs al} : obj.get? "type" = some (.str "record") →
      DocName encl obj name ns → OptText obj "doc" doc → obj.get? "fields" = some (.arr l) →
      FieldDocs ns l fs → OptTexts obj "aliases" al →
      SchemaDoc encl (.obj obj) (.record name ns doc fs false al
        (otherMembers obj ["type", "name", "namespace", "doc", "fields", "aliases"]))
  | error {encl} {obj : JMap} {name ns doc l fs al} : obj.get? "type" = some (.str "error") →
      DocName encl obj name ns → OptText obj "doc" doc → obj.get? "fields" = some (.arr l) →
      FieldDocs ns l fs → OptTexts obj "aliases" al →
      SchemaDoc encl (.obj obj) (.record name ns doc fs true al
        (otherMembers obj ["type", "name", "namespace", "doc", "fields", "aliases"]))
  | enum {encl} {obj : JMap} {name ns doc symbols dflt al} : obj.get? "type" = some (.str "enum") →
      DocName encl obj name ns → OptText obj "doc" doc →
      obj.get? "symbols" = some (.arr (symbols.map .str)) → OptText obj "default" dflt →
      OptTexts obj "aliases" al →
      SchemaDoc encl (.obj obj) (.enum name ns doc symbols dflt al
        (otherMembers obj ["type", "name", "namespace", "doc", "symbols", "default", "aliases"]))
  | fixed {encl} {obj : JMap} {name ns doc al} {size : Nat} :
      obj.get? "type" = some (.str "fixed") →
      DocName encl obj name ns → OptText obj "doc" doc →
      obj.get? "size" = some (.num (.int size)) → size < 2 ^ 32 → OptTexts obj "aliases" al →
      SchemaDoc encl (.obj obj) (.fixed name ns doc size al
        (otherMembers obj ["type", "name", "namespace", "doc", "size", "aliases"]))
  | array {encl} {obj : JMap} {j t} :
      obj.get? "type" = some (.str "array") → obj.get? "items" = some j →
      SchemaDoc encl j t → SchemaDoc encl (.obj obj) (.array t (otherMembers obj ["type", "items"]))
  | map {encl} {obj : JMap} {j t} :
      obj.get? "type" = some (.str "map") → obj.get? "values" = some j →
      SchemaDoc encl j t → SchemaDoc encl (.obj obj) (.map t (otherMembers obj ["type", "values"]))
  | bare {encl} {obj : JMap} {p} :
      obj.get? "type" = some (.str p.asStr) → otherMembers obj ["type"] = [] →
      SchemaDoc encl (.obj obj) (.prim p)
  | annotated {encl} {obj : JMap} {p} : obj.get? "type" = some (.str p.asStr) →
      otherMembers obj ["type"] ≠ [] → (∀ lt, ¬ LogicalDoc obj p lt) →
      SchemaDoc encl (.obj obj) (.annotated p (otherMembers obj ["type"]))
  | logical {encl} {obj : JMap} {p lt} :
      obj.get? "type" = some (.str p.asStr) → LogicalDoc obj p lt →
      SchemaDoc encl (.obj obj) (.logical lt (otherMembers obj ("type" :: logicalKeys lt)))
/-- The same for lists. -/
inductive SchemaDocs : Option String → List Json → List Schema → Prop
  | nil {encl} : SchemaDocs encl [] []
  | cons {encl j s js ss} : SchemaDoc encl j s → SchemaDocs encl js ss →
      SchemaDocs encl (j :: js) (s :: ss)
/-- Fields of a record in namespace `encl`, or parameters of a message. -/
inductive FieldDocs : Option String → List Json → List Field → Prop
  | nil {encl} : FieldDocs encl [] []
  | cons {encl} {obj : JMap} {name j t doc order al js fs} : obj.get? "name" = some (.str name) →
      obj.get? "type" = some j → SchemaDoc encl j t → OptText obj "doc" doc → OrderDoc obj order →
      OptTexts obj "aliases" al → FieldDocs encl js fs →
      FieldDocs encl (.obj obj :: js) (.mk name t doc (obj.get? "default") order al
        (otherMembers obj ["name", "type", "doc", "default", "order", "aliases"]) :: fs)
end

/-- The errors a message declares. -/
inductive ErrorDocs (encl : Option String) (obj : JMap) : Option (List Schema) → Prop
  | absent : obj.get? "errors" = none → ErrorDocs encl obj none
  | present {l ts} : obj.get? "errors" = some (.arr l) → SchemaDocs encl l ts →
      ErrorDocs encl obj (some ts)

/-- Whether the message is one-way. -/
inductive OneWayDoc (obj : JMap) : Bool → Prop
  | absent : obj.get? "one-way" = none → OneWayDoc obj false
  | present {b} : obj.get? "one-way" = some (.bool b) → OneWayDoc obj b

/-- The message a JSON document of a protocol with namespace `encl` stands for. -/
inductive MessageDoc (encl : Option String) : Json → Message → Prop
  | mk {obj : JMap} {doc l request j response errors oneWay} : OptText obj "doc" doc →
      obj.get? "request" = some (.arr l) → FieldDocs encl l request →
      obj.get? "response" = some j → SchemaDoc encl j response → ErrorDocs encl obj errors →
      OneWayDoc obj oneWay →
      MessageDoc encl (.obj obj)
        { doc, request, response, errors, oneWay,
          props := otherMembers obj ["doc", "request", "response", "errors", "one-way"] }

/-- The messages of a protocol. -/
inductive MessageDocs (encl : Option String) : JMap → List (String × Message) → Prop
  | nil : MessageDocs encl [] []
  | cons {name j m js ms} : MessageDoc encl j m → MessageDocs encl js ms →
      MessageDocs encl ((name, j) :: js) ((name, m) :: ms)

/-- Types and messages of a protocol; both may be left out. -/
inductive ProtocolDoc : Json → List Schema → List (String × Message) → Prop
  | mk {obj : JMap} {ns types messages} : OptText obj "namespace" ns →
      (obj.get? "types" = none ∧ types = []) ∨
        (∃ l, obj.get? "types" = some (.arr l) ∧ SchemaDocs ns l types) →
      (obj.get? "messages" = none ∧ messages = []) ∨
        (∃ l, obj.get? "messages" = some (.obj l) ∧ MessageDocs ns l messages) →
      ProtocolDoc (.obj obj) types messages

/-! ## Where the importer differs -/

/-- Conditions on one object: it does not have a name with a dot and a namespace as well; a
primitive named a logical type is one, and has a precision or scale only if it is a decimal. -/
structure RegularObject (obj : JMap) : Prop where
  name : ∀ raw, obj.get? "name" = some (.str raw) → ¬ DotFree raw → obj.get? "namespace" = none
  logical : ∀ p : Prim, obj.get? "type" = some (.str p.asStr) → NamesLogical obj.get? →
    ∃ lt, LogicalDoc obj p lt
  numbers : ∀ n, obj.get? "logicalType" = some (.str n) → n ∈ logicalBases.map Prod.fst →
    n ≠ "decimal" → obj.get? "precision" = none ∧ obj.get? "scale" = none

/-- All objects in the document meet the conditions. -/
inductive Regular : Json → Prop
  | null : Regular .null
  | bool {b} : Regular (.bool b)
  | num {n} : Regular (.num n)
  | str {s} : Regular (.str s)
  | arr {l} : (∀ j ∈ l, Regular j) → Regular (.arr l)
  | obj {o : JMap} : RegularObject o → (∀ kv ∈ o, Regular kv.2) → Regular (.obj o)

end Avdl.Spec

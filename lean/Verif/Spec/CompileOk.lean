import Verif.Spec.Compile
import Verif.Props.Registry
/-!
# Specification: which inputs compile

Which JSON documents can be imported, and which sequences of declarations and imports go through.
Vocabulary for C55.
-/

namespace Avdl.Spec

/-- The member is a number of type `u32`. -/
def HasU32 (obj : JMap) (key : String) : Prop :=
  ∃ n : Int, obj.get? key = some (.num (.int n)) ∧ 0 ≤ n ∧ n < 2 ^ 32

/-- The member is a string. -/
def HasText (obj : JMap) (key : String) : Prop := ∃ s, obj.get? key = some (.str s)

mutual
/-- The JSON document can be imported as a schema. -/
inductive ImportableSchema : Json → Prop
  /-- The name of a type. -/
  | name {s} : ImportableSchema (.str s)
  | union {l} : (∀ j ∈ l, ImportableSchema j) → ImportableSchema (.arr l)
  /-- A record or error: a name is required; `fields`, if it is an array, has to hold fields. -/
  | record {obj : JMap} {t} : obj.get? "type" = some (.str t) → (t = "record" ∨ t = "error") →
      HasText obj "name" →
      (∀ l, obj.get? "fields" = some (.arr l) → ∀ j ∈ l, ImportableField j) →
      ImportableSchema (.obj obj)
  /-- An enum: only the name is required. -/
  | enum {obj : JMap} : obj.get? "type" = some (.str "enum") → HasText obj "name" →
      ImportableSchema (.obj obj)
  | fixed {obj : JMap} : obj.get? "type" = some (.str "fixed") → HasText obj "name" →
      HasU32 obj "size" → ImportableSchema (.obj obj)
  | array {obj : JMap} {j} : obj.get? "type" = some (.str "array") → obj.get? "items" = some j →
      ImportableSchema j → ImportableSchema (.obj obj)
  | map {obj : JMap} {j} : obj.get? "type" = some (.str "map") → obj.get? "values" = some j →
      ImportableSchema j → ImportableSchema (.obj obj)
  /-- A primitive type, with any attributes except a decimal of precision zero. -/
  | primitive {obj : JMap} {p : Prim} : obj.get? "type" = some (.str p.asStr) →
      ¬ (obj.get? "logicalType" = some (.str "decimal") ∧
        obj.get? "precision" = some (.num (.int 0))) →
      ImportableSchema (.obj obj)
/-- The JSON document can be imported as a field. -/
inductive ImportableField : Json → Prop
  | mk {obj : JMap} {j} : HasText obj "name" → obj.get? "type" = some j → ImportableSchema j →
      ImportableField (.obj obj)
end

/-- The JSON document can be imported as a message: an object; parameters and errors count if they
are arrays. -/
inductive ImportableMessage : Json → Prop
  | mk {obj : JMap} : (∀ l, obj.get? "request" = some (.arr l) → ∀ j ∈ l, ImportableField j) →
      (∀ j, obj.get? "response" = some j → ImportableSchema j) →
      (∀ l, obj.get? "errors" = some (.arr l) → ∀ j ∈ l, ImportableSchema j) →
      ImportableMessage (.obj obj)

/-- The JSON document can be imported as a protocol: types count if they are an array, messages
if they are an object. -/
def ImportableProtocol (j : Json) : Prop :=
  (∀ l, j.get? "types" = some (.arr l) → ∀ t ∈ l, ImportableSchema t) ∧
  ∀ ms, j.get? "messages" = some (.obj ms) → ∀ nm ∈ ms, ImportableMessage nm.2

/-- The definition of a name among the given ones. -/
def definition (r : List (String × Schema)) (x : String) : Option Schema :=
  (r.find? fun kt => kt.1 == x).map Prod.snd

/-- The default values of a declaration are acceptable: those of fields whose types are all known
conform to the type. -/
def DefaultsOk (res : String → Option Schema) (s : Schema) : Prop :=
  ∀ n ns d fs e al ps, s = .record n ns d fs e al ps → ∀ f ∈ fs, ∀ v, f.default = some v →
    (∀ x, Mentions res f.schema x → res x ≠ none) → ConformsU res [] v f.schema

section
variable [CharTables]

/-- The event goes through, the given types having been met before. -/
def EventOk (before : List Schema) : Event → Prop
  | .type s .. => Props.Acceptable s ∧
      (∀ x, s.fullName? = some x → x ∉ (Props.firstAccepted [] before).map Prod.fst) ∧
      DefaultsOk (definition (Props.firstAccepted [] (before ++ [s]))) s
  | .schema _ j _ => ImportableSchema j
  | .protocol _ j _ => ImportableProtocol j
  | .idl .. => True

/-- All events go through. -/
def EventsOk (es : List Event) : Prop :=
  ∀ l ev l', es = l ++ ev :: l' → EventOk (l.flatMap Event.types) ev

end

/-- The message refers to the name. -/
inductive MessageMentions (m : Message) (x : String) : Prop
  | response {sp} : RefersTo m.response x sp → MessageMentions m x
  | parameter {f sp} : f ∈ m.request → RefersTo f.schema x sp → MessageMentions m x
  | error {es s sp} : m.errors = some es → s ∈ es → RefersTo s x sp → MessageMentions m x

/-- The output refers to the name: a type, the main schema, or a message of the protocol or of the
imports that is not overridden. -/
inductive OutputRefersTo [CharTables] (file : IdlFile) (es : List Event) (x : String) : Prop
  | type {kt sp} : kt ∈ Props.firstAccepted [] (es.flatMap Event.types) → RefersTo kt.2 x sp →
      OutputRefersTo file es x
  | schema {s sp} : file = .schema s → RefersTo s x sp → OutputRefersTo file es x
  | named {ss s sp} : file = .named ss → s ∈ ss → RefersTo s x sp → OutputRefersTo file es x
  | message {p n m} : file = .protocol p →
      lastEntry (es.flatMap Event.messages ++ p.messages) n = some m → MessageMentions m x →
      OutputRefersTo file es x

end Avdl.Spec

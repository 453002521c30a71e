import Verif.Spec.CompileOk
/-!
# Specification: the first defect of a JSON document

What is wrong with a document that cannot be imported, and where.  Vocabulary for C59.
-/

namespace Avdl.Spec

/-- The last part of a name. -/
def LastPart (raw simple : String) : Prop :=
  '.' ∉ simple.toList ∧ (raw = simple ∨ ∃ ns, raw.toList = ns ++ '.' :: simple.toList)

/-- The kinds of types that need a name, by the value of `type`. -/
def namedKinds : List (String × String) :=
  [("record", "record"), ("error", "record"), ("enum", "enum"), ("fixed", "fixed")]

/-- The values of `type` that are not primitive types. -/
def complexKinds : List String := ["record", "error", "enum", "fixed", "array", "map"]

/-- The member is a number that is not negative and fits into 64 bits. -/
def HasU64 (obj : JMap) (key : String) : Prop :=
  ∃ n : Int, obj.get? key = some (.num (.int n)) ∧ 0 ≤ n ∧ n < 2 ^ 64

mutual
/-- The first defect of a schema, and the way to it. -/
inductive SchemaDefect : Json → List Step → Defect → Prop
  /-- Neither a string nor an array nor an object. -/
  | notSchema {j} : (∀ s, j ≠ .str s) → (∀ l, j ≠ .arr l) → (∀ o, j ≠ .obj o) →
      SchemaDefect j [] (.invalidSchema j)
  /-- A member of a union; those before it are in order. -/
  | member {before j after t d} : (∀ x ∈ before, ImportableSchema x) → SchemaDefect j t d →
      SchemaDefect (.arr (before ++ j :: after)) t d
  | noType {obj} : ¬ HasText obj "type" → SchemaDefect (.obj obj) [] .missingType
  | unknownType {obj : JMap} {t} : obj.get? "type" = some (.str t) → t ∉ complexKinds →
      (∀ p : Prim, t ≠ p.asStr) → SchemaDefect (.obj obj) [] (.unknownType t)
  | noName {obj : JMap} {t what} : obj.get? "type" = some (.str t) → (t, what) ∈ namedKinds →
      ¬ HasText obj "name" → SchemaDefect (.obj obj) [] (.missingName what)
  /-- A field of a record; those before it are in order. -/
  | field {obj : JMap} {t raw name before j after tr d} : obj.get? "type" = some (.str t) →
      (t = "record" ∨ t = "error") → obj.get? "name" = some (.str raw) → LastPart raw name →
      obj.get? "fields" = some (.arr (before ++ j :: after)) →
      (∀ x ∈ before, ImportableField x) → FieldDefect j tr d →
      SchemaDefect (.obj obj) (.field before.length name :: tr) d
  | noSize {obj : JMap} : obj.get? "type" = some (.str "fixed") → HasText obj "name" →
      ¬ HasU64 obj "size" → SchemaDefect (.obj obj) [] .missingSize
  | largeSize {obj : JMap} {n : Nat} : obj.get? "type" = some (.str "fixed") → HasText obj "name" →
      obj.get? "size" = some (.num (.int n)) → 2 ^ 32 ≤ n → n < 2 ^ 64 →
      SchemaDefect (.obj obj) [] (.sizeTooLarge n)
  | noItems {obj : JMap} : obj.get? "type" = some (.str "array") → obj.get? "items" = none →
      SchemaDefect (.obj obj) [] .missingItems
  | items {obj : JMap} {j t d} : obj.get? "type" = some (.str "array") →
      obj.get? "items" = some j → SchemaDefect j t d → SchemaDefect (.obj obj) (.items :: t) d
  | noValues {obj : JMap} : obj.get? "type" = some (.str "map") → obj.get? "values" = none →
      SchemaDefect (.obj obj) [] .missingValues
  | values {obj : JMap} {j t d} : obj.get? "type" = some (.str "map") →
      obj.get? "values" = some j → SchemaDefect j t d → SchemaDefect (.obj obj) (.values :: t) d
  | zeroPrecision {obj : JMap} {p : Prim} : obj.get? "type" = some (.str p.asStr) →
      obj.get? "logicalType" = some (.str "decimal") → obj.get? "precision" = some (.num (.int 0)) →
      SchemaDefect (.obj obj) [] .decimalPrecision
/-- The first defect of a field, and the way to it. -/
inductive FieldDefect : Json → List Step → Defect → Prop
  | notObject {j} : (∀ o, j ≠ .obj o) → FieldDefect j [] .fieldNotObject
  | noName {obj} : ¬ HasText obj "name" → FieldDefect (.obj obj) [] (.missingName "field")
  | noType {obj : JMap} : HasText obj "name" → obj.get? "type" = none →
      FieldDefect (.obj obj) [] .fieldMissingType
  | type {obj : JMap} {name j t d} : obj.get? "name" = some (.str name) →
      obj.get? "type" = some j → SchemaDefect j t d →
      FieldDefect (.obj obj) (.fieldType name :: t) d
end

/-- The first defect of a message, and the way to it: parameters come first, then the result, then
the errors. -/
inductive MessageDefect : Json → List Step → Defect → Prop
  | notObject {j} : (∀ o, j ≠ .obj o) → MessageDefect j [] .messageNotObject
  | parameter {obj : JMap} {before j after t d} :
      obj.get? "request" = some (.arr (before ++ j :: after)) →
      (∀ x ∈ before, ImportableField x) → FieldDefect j t d →
      MessageDefect (.obj obj) (.parameter before.length :: t) d
  | response {obj : JMap} {j t d} :
      (∀ l, obj.get? "request" = some (.arr l) → ∀ x ∈ l, ImportableField x) →
      obj.get? "response" = some j → SchemaDefect j t d →
      MessageDefect (.obj obj) (.response :: t) d
  | error {obj : JMap} {before j after t d} :
      (∀ l, obj.get? "request" = some (.arr l) → ∀ x ∈ l, ImportableField x) →
      (∀ j, obj.get? "response" = some j → ImportableSchema j) →
      obj.get? "errors" = some (.arr (before ++ j :: after)) →
      (∀ x ∈ before, ImportableSchema x) → SchemaDefect j t d →
      MessageDefect (.obj obj) (.error before.length :: t) d

/-- The first defect of a protocol, and the way to it: types come before messages. -/
inductive ProtocolDefect (doc : Json) : List Step → Defect → Prop
  | type {before j after t d} : doc.get? "types" = some (.arr (before ++ j :: after)) →
      (∀ x ∈ before, ImportableSchema x) → SchemaDefect j t d →
      ProtocolDefect doc (.type before.length :: t) d
  | message {before name j after t d} :
      (∀ l, doc.get? "types" = some (.arr l) → ∀ x ∈ l, ImportableSchema x) →
      doc.get? "messages" = some (.obj (before ++ (name, j) :: after)) →
      (∀ x ∈ before, ImportableMessage x.2) → MessageDefect j t d →
      ProtocolDefect doc (.message name :: t) d

end Avdl.Spec

import Verif.Schema
/-!
# Specification: default values

The Avro specification's table of default values as an inductive relation.  References are
resolved through a table `res` of type definitions.
-/

namespace Avdl.Spec

/-- JSON values allowed for a primitive type. -/
inductive ConformsPrim : Json → Prim → Prop
  | null : ConformsPrim .null .null
  | boolean (b : Bool) : ConformsPrim (.bool b) .boolean
  | int (i : Int) : -2147483648 ≤ i → i ≤ 2147483647 → ConformsPrim (.num (.int i)) .int
  | long (i : Int) : -9223372036854775808 ≤ i → i ≤ 9223372036854775807 →
      ConformsPrim (.num (.int i)) .long
  | float (n : JNum) : ConformsPrim (.num n) .float
  | double (n : JNum) : ConformsPrim (.num n) .double
  | floatName (s : String) : s ∈ ["NaN", "Infinity", "-Infinity"] → ConformsPrim (.str s) .float
  | doubleName (s : String) : s ∈ ["NaN", "Infinity", "-Infinity"] → ConformsPrim (.str s) .double
  | bytes (s : String) : ConformsPrim (.str s) .bytes
  | string (s : String) : ConformsPrim (.str s) .string

/-- The value under a key of a JSON object. -/
def lookup (o : List (String × Json)) (key : String) : Option Json :=
  match o with
  | [] => none
  | (k, v) :: t => if k = key then some v else lookup t key

/-- A JSON value is a legal default for a type; `res` resolves full names to definitions. -/
inductive Conforms (res : String → Option Schema) : Json → Schema → Prop
  | prim {v p} : ConformsPrim v p → Conforms res v (.prim p)
  | annotated {v p ps} : ConformsPrim v p → Conforms res v (.annotated p ps)
  | logical {v lt ps} : ConformsPrim v lt.base → Conforms res v (.logical lt ps)
  | enum {s n ns d sy df al ps} : Conforms res (.str s) (.enum n ns d sy df al ps)
  | fixed {s n ns d sz al ps} : Conforms res (.str s) (.fixed n ns d sz al ps)
  | array {l i ps} : (∀ v ∈ l, Conforms res v i) → Conforms res (.arr l) (.array i ps)
  | map {o i ps} : (∀ kv ∈ o, Conforms res kv.2 i) → Conforms res (.obj o) (.map i ps)
  | union {v t ts b} : t ∈ ts → Conforms res v t → Conforms res v (.union ts b)
  | record {o n ns d fs e al ps} :
      (∀ f ∈ fs, ∀ v, lookup o f.name = some v → Conforms res v f.schema) →
      (∀ f ∈ fs, lookup o f.name = none → f.default ≠ none) →
      Conforms res (.obj o) (.record n ns d fs e al ps)
  | ref {v n ns ps sp t} : res (makeFullName n ns) = some t → Conforms res v t →
      Conforms res v (.ref n ns ps sp)

/-- The same, with recursive positions treated as unknown: inside a record, a reference back to
an enclosing record accepts any value. -/
inductive ConformsU (res : String → Option Schema) : List String → Json → Schema → Prop
  | prim {V v p} : ConformsPrim v p → ConformsU res V v (.prim p)
  | annotated {V v p ps} : ConformsPrim v p → ConformsU res V v (.annotated p ps)
  | logical {V v lt ps} : ConformsPrim v lt.base → ConformsU res V v (.logical lt ps)
  | enum {V s n ns d sy df al ps} : ConformsU res V (.str s) (.enum n ns d sy df al ps)
  | fixed {V s n ns d sz al ps} : ConformsU res V (.str s) (.fixed n ns d sz al ps)
  | array {V l i ps} : (∀ v ∈ l, ConformsU res V v i) → ConformsU res V (.arr l) (.array i ps)
  | map {V o i ps} : (∀ kv ∈ o, ConformsU res V kv.2 i) → ConformsU res V (.obj o) (.map i ps)
  | union {V v t ts b} : t ∈ ts → ConformsU res V v t → ConformsU res V v (.union ts b)
  | record {V o n ns d fs e al ps} :
      (∀ f ∈ fs, ∀ v, lookup o f.name = some v →
        ConformsU res (makeFullName n ns :: V) v f.schema) →
      (∀ f ∈ fs, lookup o f.name = none → f.default ≠ none) →
      ConformsU res V (.obj o) (.record n ns d fs e al ps)
  | recursive {V v n ns ps sp} : makeFullName n ns ∈ V → ConformsU res V v (.ref n ns ps sp)
  | ref {V v n ns ps sp t} : makeFullName n ns ∉ V → res (makeFullName n ns) = some t →
      ConformsU res V v t → ConformsU res V v (.ref n ns ps sp)

/-- The words for a JSON value in an explanation. -/
inductive KindWord : Json → String → Prop
  | null : KindWord .null "null"
  | boolean {b} : KindWord (.bool b) "boolean"
  | number {n} : KindWord (.num n) "number"
  | string {s} : KindWord (.str s) "string"
  | array {l} : KindWord (.arr l) "array"
  | object {o} : KindWord (.obj o) "object"

/-- The name of a primitive type. -/
inductive PrimWord : Prim → String → Prop
  | null : PrimWord .null "null"
  | boolean : PrimWord .boolean "boolean"
  | int : PrimWord .int "int"
  | long : PrimWord .long "long"
  | float : PrimWord .float "float"
  | double : PrimWord .double "double"
  | bytes : PrimWord .bytes "bytes"
  | string : PrimWord .string "string"

/-- The words for a type in an explanation: those of the IDL, for declared types the kind and the
name. -/
inductive TypeWords : Schema → String → Prop
  | prim {p w} : PrimWord p w → TypeWords (.prim p) w
  | annotated {p ps w} : PrimWord p w → TypeWords (.annotated p ps) w
  | record {n ns d fs e al ps} : TypeWords (.record n ns d fs e al ps) ("record " ++ n)
  | enum {n ns d sy df al ps} : TypeWords (.enum n ns d sy df al ps) ("enum " ++ n)
  | fixed {n ns d sz al ps} : TypeWords (.fixed n ns d sz al ps) ("fixed " ++ n)
  | array {i ps} : TypeWords (.array i ps) "array"
  | map {i ps} : TypeWords (.map i ps) "map"
  | union {ts b} : TypeWords (.union ts b) "union"
  | date {ps} : TypeWords (.logical .date ps) "date"
  | timeMillis {ps} : TypeWords (.logical .timeMillis ps) "time_ms"
  | timeMicros {ps} : TypeWords (.logical .timeMicros ps) "time_us"
  | timestampMillis {ps} : TypeWords (.logical .timestampMillis ps) "timestamp_ms"
  | timestampMicros {ps} : TypeWords (.logical .timestampMicros ps) "timestamp_us"
  | localTimestampMillis {ps} : TypeWords (.logical .localTimestampMillis ps) "local_timestamp_ms"
  | localTimestampMicros {ps} : TypeWords (.logical .localTimestampMicros ps) "local_timestamp_us"
  | uuid {ps} : TypeWords (.logical .uuid ps) "uuid"
  | decimal {p s ps} : TypeWords (.logical (.decimal p s) ps) "decimal"
  | ref {n ns ps sp} : TypeWords (.ref n ns ps sp) n

/-- `x` occurs as a reference (with source position `sp`) somewhere in the schema. -/
inductive RefersTo : Schema → String → Option Span → Prop
  | ref {n ns ps sp} : RefersTo (.ref n ns ps sp) (makeFullName n ns) sp
  | field {n ns d fs e al ps f x sp} : f ∈ fs → RefersTo f.schema x sp →
      RefersTo (.record n ns d fs e al ps) x sp
  | items {i ps x sp} : RefersTo i x sp → RefersTo (.array i ps) x sp
  | values {i ps x sp} : RefersTo i x sp → RefersTo (.map i ps) x sp
  | branch {ts b t x sp} : t ∈ ts → RefersTo t x sp → RefersTo (.union ts b) x sp

/-- No references anywhere. -/
def RefFree (s : Schema) : Prop := ∀ x sp, ¬ RefersTo s x sp

/-- `x` is mentioned by the schema, directly or through the definitions of the types it mentions. -/
inductive Mentions (res : String → Option Schema) : Schema → String → Prop
  | here {s x sp} : RefersTo s x sp → Mentions res s x
  | step {s y sp t x} : RefersTo s y sp → res y = some t → Mentions res t x → Mentions res s x

end Avdl.Spec

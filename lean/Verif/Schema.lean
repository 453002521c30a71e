import Verif.Names
/-!
# Schemas

Model of `AvroSchema` and friends, /repo/src/model/schema.rs and /repo/src/model/protocol.rs.
-/

namespace Avdl

/-- `FieldOrder`, /repo/src/model/schema.rs 47-51. -/
inductive FieldOrder where
  | ascending | descending | ignore
deriving DecidableEq, Repr

/-- `PrimitiveType`, /repo/src/model/schema.rs 56-65. -/
inductive Prim where
  | null | boolean | int | long | float | double | bytes | string
deriving DecidableEq, Repr

/-- `PrimitiveType::as_str`, /repo/src/model/schema.rs 69-80. -/
def Prim.asStr : Prim → String
  | .null => "null"
  | .boolean => "boolean"
  | .int => "int"
  | .long => "long"
  | .float => "float"
  | .double => "double"
  | .bytes => "bytes"
  | .string => "string"

/-- `PrimitiveType::from_str`, /repo/src/model/schema.rs 111-129. -/
def Prim.ofStr? (s : String) : Option Prim :=
  if s = "null" then some .null
  else if s = "boolean" then some .boolean
  else if s = "int" then some .int
  else if s = "long" then some .long
  else if s = "float" then some .float
  else if s = "double" then some .double
  else if s = "bytes" then some .bytes
  else if s = "string" then some .string
  else none

/-- `LogicalType`, /repo/src/model/schema.rs 139-162. -/
inductive LogicalType where
  | date | timeMillis | timeMicros | timestampMillis | timestampMicros
  | localTimestampMillis | localTimestampMicros | uuid
  | decimal (precision scale : Nat)
deriving DecidableEq, Repr

/-- `LogicalType::name`, /repo/src/model/schema.rs 172-184. -/
def LogicalType.name : LogicalType → String
  | .date => "date"
  | .timeMillis => "time-millis"
  | .timeMicros => "time-micros"
  | .timestampMillis => "timestamp-millis"
  | .timestampMicros => "timestamp-micros"
  | .localTimestampMillis => "local-timestamp-millis"
  | .localTimestampMicros => "local-timestamp-micros"
  | .uuid => "uuid"
  | .decimal _ _ => "decimal"

/-- `LogicalType::expected_base_type`, /repo/src/model/schema.rs 191-202. -/
def LogicalType.base : LogicalType → Prim
  | .date | .timeMillis => .int
  | .timeMicros | .timestampMillis | .timestampMicros
  | .localTimestampMillis | .localTimestampMicros => .long
  | .uuid => .string
  | .decimal _ _ => .bytes

/-- `parse_logical_type`, /repo/src/model/schema.rs 216-239. -/
def parseLogicalType (name : String) (precision scale : Option Nat) : Option LogicalType :=
  if name = "date" then some .date
  else if name = "time-millis" then some .timeMillis
  else if name = "time-micros" then some .timeMicros
  else if name = "timestamp-millis" then some .timestampMillis
  else if name = "timestamp-micros" then some .timestampMicros
  else if name = "local-timestamp-millis" then some .localTimestampMillis
  else if name = "local-timestamp-micros" then some .localTimestampMicros
  else if name = "uuid" then some .uuid
  else if name = "decimal" then
    match precision with
    | none => none
    | some p => some (.decimal p (scale.getD 0))
  else none

/-- `SpanWithSource`, /repo/src/error.rs 10-17.  Simplification: the file's full content is
left out (spans are compared by file name and offset only). -/
structure Span where
  offset : Nat
  length : Nat
  file : String
deriving DecidableEq, Repr

mutual
/-- `AvroSchema`, /repo/src/model/schema.rs 286-379.  Simplification: the eight bare
primitive variants are the single constructor `prim`. -/
inductive Schema where
  | prim (p : Prim)
  | record (name : String) (ns : Option String) (doc : Option String) (fields : List Field)
      (isError : Bool) (aliases : List String) (props : Props)
  | enum (name : String) (ns : Option String) (doc : Option String) (symbols : List String)
      (default : Option String) (aliases : List String) (props : Props)
  | fixed (name : String) (ns : Option String) (doc : Option String) (size : Nat)
      (aliases : List String) (props : Props)
  | array (items : Schema) (props : Props)
  | map (values : Schema) (props : Props)
  | union (types : List Schema) (nullable : Bool)
  | annotated (kind : Prim) (props : Props)
  | logical (lt : LogicalType) (props : Props)
  | ref (name : String) (ns : Option String) (props : Props) (span : Option Span)
/-- `Field`, /repo/src/model/schema.rs 383-391. -/
inductive Field where
  | mk (name : String) (schema : Schema) (doc : Option String) (default : Option Json)
      (order : Option FieldOrder) (aliases : List String) (props : Props)
end

instance : Inhabited Schema := ⟨.prim .null⟩
instance : Inhabited Field := ⟨.mk "" (.prim .null) none none none [] []⟩

namespace Field
def name : Field → String | .mk n _ _ _ _ _ _ => n
def schema : Field → Schema | .mk _ s _ _ _ _ _ => s
def doc : Field → Option String | .mk _ _ d _ _ _ _ => d
def default : Field → Option Json | .mk _ _ _ d _ _ _ => d
def order : Field → Option FieldOrder | .mk _ _ _ _ o _ _ => o
def aliases : Field → List String | .mk _ _ _ _ _ a _ => a
def props : Field → Props | .mk _ _ _ _ _ _ p => p
/-- `Field { schema, ..field }`. -/
def withSchema (f : Field) (s : Schema) : Field := .mk f.name s f.doc f.default f.order f.aliases f.props
end Field

mutual
/-- Decidable equality for `Schema` (derived `PartialEq` in /repo/src/model/schema.rs 285). -/
def Schema.decEq : (a b : Schema) → Decidable (a = b)
  | .prim p, .prim q => decidable_of_iff (p = q) (by simp)
  | .record n ns d fs e al ps, .record n' ns' d' fs' e' al' ps' =>
      match Schema.decEqFields fs fs' with
      | isFalse h => isFalse (by intro h'; cases h'; exact h rfl)
      | isTrue h => decidable_of_iff
          (n = n' ∧ ns = ns' ∧ d = d' ∧ e = e' ∧ al = al' ∧ ps = ps') (by simp [h])
  | .enum n ns d sy df al ps, .enum n' ns' d' sy' df' al' ps' =>
      decidable_of_iff (n = n' ∧ ns = ns' ∧ d = d' ∧ sy = sy' ∧ df = df' ∧ al = al' ∧ ps = ps')
        (by simp)
  | .fixed n ns d sz al ps, .fixed n' ns' d' sz' al' ps' =>
      decidable_of_iff (n = n' ∧ ns = ns' ∧ d = d' ∧ sz = sz' ∧ al = al' ∧ ps = ps') (by simp)
  | .array i ps, .array i' ps' =>
      match Schema.decEq i i' with
      | isFalse h => isFalse (by intro h'; cases h'; exact h rfl)
      | isTrue h => decidable_of_iff (ps = ps') (by simp [h])
  | .map i ps, .map i' ps' =>
      match Schema.decEq i i' with
      | isFalse h => isFalse (by intro h'; cases h'; exact h rfl)
      | isTrue h => decidable_of_iff (ps = ps') (by simp [h])
  | .union ts b, .union ts' b' =>
      match Schema.decEqList ts ts' with
      | isFalse h => isFalse (by intro h'; cases h'; exact h rfl)
      | isTrue h => decidable_of_iff (b = b') (by simp [h])
  | .annotated k ps, .annotated k' ps' => decidable_of_iff (k = k' ∧ ps = ps') (by simp)
  | .logical k ps, .logical k' ps' => decidable_of_iff (k = k' ∧ ps = ps') (by simp)
  | .ref n ns ps sp, .ref n' ns' ps' sp' =>
      decidable_of_iff (n = n' ∧ ns = ns' ∧ ps = ps' ∧ sp = sp') (by simp)
  | .prim _, .record .. | .prim _, .enum .. | .prim _, .fixed .. | .prim _, .array ..
  | .prim _, .map .. | .prim _, .union .. | .prim _, .annotated .. | .prim _, .logical ..
  | .prim _, .ref ..
  | .record .., .prim _ | .record .., .enum .. | .record .., .fixed .. | .record .., .array ..
  | .record .., .map .. | .record .., .union .. | .record .., .annotated ..
  | .record .., .logical .. | .record .., .ref ..
  | .enum .., .prim _ | .enum .., .record .. | .enum .., .fixed .. | .enum .., .array ..
  | .enum .., .map .. | .enum .., .union .. | .enum .., .annotated .. | .enum .., .logical ..
  | .enum .., .ref ..
  | .fixed .., .prim _ | .fixed .., .record .. | .fixed .., .enum .. | .fixed .., .array ..
  | .fixed .., .map .. | .fixed .., .union .. | .fixed .., .annotated .. | .fixed .., .logical ..
  | .fixed .., .ref ..
  | .array .., .prim _ | .array .., .record .. | .array .., .enum .. | .array .., .fixed ..
  | .array .., .map .. | .array .., .union .. | .array .., .annotated .. | .array .., .logical ..
  | .array .., .ref ..
  | .map .., .prim _ | .map .., .record .. | .map .., .enum .. | .map .., .fixed ..
  | .map .., .array .. | .map .., .union .. | .map .., .annotated .. | .map .., .logical ..
  | .map .., .ref ..
  | .union .., .prim _ | .union .., .record .. | .union .., .enum .. | .union .., .fixed ..
  | .union .., .array .. | .union .., .map .. | .union .., .annotated .. | .union .., .logical ..
  | .union .., .ref ..
  | .annotated .., .prim _ | .annotated .., .record .. | .annotated .., .enum ..
  | .annotated .., .fixed .. | .annotated .., .array .. | .annotated .., .map ..
  | .annotated .., .union .. | .annotated .., .logical .. | .annotated .., .ref ..
  | .logical .., .prim _ | .logical .., .record .. | .logical .., .enum ..
  | .logical .., .fixed .. | .logical .., .array .. | .logical .., .map ..
  | .logical .., .union .. | .logical .., .annotated .. | .logical .., .ref ..
  | .ref .., .prim _ | .ref .., .record .. | .ref .., .enum .. | .ref .., .fixed ..
  | .ref .., .array .. | .ref .., .map .. | .ref .., .union .. | .ref .., .annotated ..
  | .ref .., .logical .. => isFalse (by intro h; cases h)
def Field.decEq : (a b : Field) → Decidable (a = b)
  | .mk n s d df o al ps, .mk n' s' d' df' o' al' ps' =>
      match Schema.decEq s s' with
      | isFalse h => isFalse (by intro h'; cases h'; exact h rfl)
      | isTrue h => decidable_of_iff
          (n = n' ∧ d = d' ∧ df = df' ∧ o = o' ∧ al = al' ∧ ps = ps') (by simp [h])
def Schema.decEqFields : (a b : List Field) → Decidable (a = b)
  | [], [] => isTrue rfl
  | [], _ :: _ => isFalse (by intro h; cases h)
  | _ :: _, [] => isFalse (by intro h; cases h)
  | a :: s, b :: t =>
      match Field.decEq a b, Schema.decEqFields s t with
      | isTrue h, isTrue h' => isTrue (by rw [h, h'])
      | isFalse h, _ => isFalse (by intro h'; cases h'; exact h rfl)
      | _, isFalse h => isFalse (by intro h'; cases h'; exact h rfl)
def Schema.decEqList : (a b : List Schema) → Decidable (a = b)
  | [], [] => isTrue rfl
  | [], _ :: _ => isFalse (by intro h; cases h)
  | _ :: _, [] => isFalse (by intro h; cases h)
  | a :: s, b :: t =>
      match Schema.decEq a b, Schema.decEqList s t with
      | isTrue h, isTrue h' => isTrue (by rw [h, h'])
      | isFalse h, _ => isFalse (by intro h'; cases h'; exact h rfl)
      | _, isFalse h => isFalse (by intro h'; cases h'; exact h rfl)
end

instance : DecidableEq Schema := Schema.decEq
instance : DecidableEq Field := Field.decEq

namespace Schema

/-- `AvroSchema::full_name`, /repo/src/model/schema.rs 431-447. -/
def fullName? : Schema → Option String
  | .record n ns .. | .enum n ns .. | .fixed n ns .. | .ref n ns .. => some (makeFullName n ns)
  | _ => none

/-- `AvroSchema::name`, /repo/src/model/schema.rs 450-457. -/
def name? : Schema → Option String
  | .record n .. | .enum n .. | .fixed n .. => some n
  | _ => none

/-- `AvroSchema::union_type_key`, /repo/src/model/schema.rs 469-503. -/
def unionKey : Schema → String
  | .prim p => p.asStr
  | .record n ns .. | .enum n ns .. | .fixed n ns .. | .ref n ns .. => makeFullName n ns
  | .array .. => "array"
  | .map .. => "map"
  | .union .. => "union"
  | .annotated k _ => k.asStr
  | .logical lt _ => lt.base.asStr

/-- `AvroSchema::type_description`, /repo/src/model/schema.rs 506-536. -/
def typeDescription : Schema → String
  | .prim p => p.asStr
  | .record n .. => "record " ++ n
  | .enum n .. => "enum " ++ n
  | .fixed n .. => "fixed " ++ n
  | .array .. => "array"
  | .map .. => "map"
  | .union .. => "union"
  | .annotated k _ => k.asStr
  | .logical lt _ => match lt with
      | .date => "date"
      | .timeMillis => "time_ms"
      | .timeMicros => "time_us"
      | .timestampMillis => "timestamp_ms"
      | .timestampMicros => "timestamp_us"
      | .localTimestampMillis => "local_timestamp_ms"
      | .localTimestampMicros => "local_timestamp_us"
      | .uuid => "uuid"
      | .decimal _ _ => "decimal"
  | .ref n .. => n

/-- `AvroSchema::with_merged_properties`, /repo/src/model/schema.rs 548-670. -/
def withMergedProps (s : Schema) (ps : Props) : Schema :=
  match s with
  | .prim p => .annotated p ps
  | .record n ns d fs e al ex => .record n ns d fs e al (ex.extend ps)
  | .enum n ns d sy df al ex => .enum n ns d sy df al (ex.extend ps)
  | .fixed n ns d sz al ex => .fixed n ns d sz al (ex.extend ps)
  | .array i ex => .array i (ex.extend ps)
  | .map i ex => .map i (ex.extend ps)
  | .logical lt ex => .logical lt (ex.extend ps)
  | .annotated k ex => .annotated k (ex.extend ps)
  | .ref n ns ex sp => .ref n ns (ex.extend ps) sp
  | .union ts b => .union ts b

end Schema

/-- `Message`, /repo/src/model/protocol.rs 19-26. -/
structure Message where
  doc : Option String
  props : Props
  request : List Field
  response : Schema
  errors : Option (List Schema)
  oneWay : Bool
deriving DecidableEq

/-- `Protocol`, /repo/src/model/protocol.rs 8-15.  `messages` is a `HashMap`: list order = iteration
order. -/
structure Protocol where
  name : String
  ns : Option String
  doc : Option String
  props : Props
  types : List Schema
  messages : List (String × Message)
deriving DecidableEq

end Avdl

import Verif.Registry
/-!
# Default values

Model of /repo/src/model/schema.rs 679-1060.
-/

namespace Avdl

/-- `Number::is_i64`. -/
def JNum.isI64 : JNum → Bool
  | .int i => decide (-(2 ^ 63) ≤ i ∧ i < 2 ^ 63)
  | .float .. => false

/-- `Number::is_u64`. -/
def JNum.isU64 : JNum → Bool
  | .int i => decide (0 ≤ i ∧ i < 2 ^ 64)
  | .float .. => false

/-- `is_json_integer`, /repo/src/model/schema.rs 693-695. -/
def JNum.isInteger (n : JNum) : Bool := n.isI64 || n.isU64

/-- `json_type_description`, /repo/src/model/schema.rs 679-688. -/
def jsonTypeDescription : Json → String
  | .null => "null"
  | .bool _ => "boolean"
  | .num _ => "number"
  | .str _ => "string"
  | .arr _ => "array"
  | .obj _ => "object"

/-- The primitive arms of `is_valid_default`, /repo/src/model/schema.rs 710-735. -/
def validPrim (v : Json) : Prim → Bool
  | .null => match v with | .null => true | _ => false
  | .boolean => match v with | .bool _ => true | _ => false
  | .int => match v with
      | .num (.int i) => (JNum.int i).isI64 && decide (-(2 ^ 31) ≤ i ∧ i ≤ 2 ^ 31 - 1)
      | _ => false
  | .long => match v with | .num n => n.isI64 | _ => false
  | .float | .double => match v with
      | .num _ => true
      | .str s => s == "NaN" || s == "Infinity" || s == "-Infinity"
      | _ => false
  | .string | .bytes => v.isStr

mutual
/-- `is_valid_default`, /repo/src/model/schema.rs 705-816. -/
def isValidDefault (v : Json) : Schema → Bool
  | .prim p => validPrim v p
  | .record _ _ _ fields _ _ _ =>
      match v with
      | .obj o => validFields o fields
      | _ => false
  | .enum .. | .fixed .. => v.isStr
  | .array items _ =>
      match v with
      | .arr l => l.all fun e => isValidDefault e items
      | _ => false
  | .map values _ =>
      match v with
      | .obj o => o.all fun kv => isValidDefault kv.2 values
      | _ => false
  | .union types _ => validAny v types
  | .annotated k _ => validPrim v k
  | .logical lt _ => validPrim v lt.base
  | .ref .. => true
/-- The field loop of `is_valid_default`, lines 753-765. -/
def validFields (o : JMap) : List Field → Bool
  | [] => true
  | .mk name s _ dflt _ _ _ :: fs =>
      (match o.get? name with
        | some fv => isValidDefault fv s
        | none => dflt.isSome) && validFields o fs
/-- `types.iter().any(..)`, line 798. -/
def validAny (v : Json) : List Schema → Bool
  | [] => false
  | s :: ss => isValidDefault v s || validAny v ss
end

/-- Why a default is invalid.  `validate_default` builds the corresponding message text. -/
inductive DefaultReason where
  | outOfRangeInt (n : JNum)
  | outOfRangeLong (n : JNum)
  | missingRequired (record : String) (fields : List String)
  | invalidField (field : String) (reason : DefaultReason)
  | mismatch (expected got : String)
deriving DecidableEq, Repr

/-- The required fields missing from a default object, lines 857-861. -/
def missingRequired (o : JMap) (fields : List Field) : List String :=
  (fields.filter fun f => f.default.isNone && (o.get? f.name).isNone).map Field.name

mutual
/-- `validate_default`, /repo/src/model/schema.rs 820-887.  The message text is replaced by
`DefaultReason`. -/
def validateDefault (v : Json) : Schema → Option DefaultReason
  | .prim p =>
      if validPrim v p then none
      else some (match v, p with
        | .num n, .int => if n.isInteger then .outOfRangeInt n else .mismatch "int" "number"
        | .num n, .long => if n.isInteger then .outOfRangeLong n else .mismatch "long" "number"
        | v, p => .mismatch p.asStr (jsonTypeDescription v))
  | .record name ns d fields e al ps =>
      if isValidDefault v (.record name ns d fields e al ps) then none
      else match v with
        | .obj o =>
            match missingRequired o fields with
            | [] =>
                match firstInvalidField o fields with
                | some r => some r
                | none => some (.mismatch ("record " ++ name) "object")
            | m :: ms => some (.missingRequired name (m :: ms))
        | v => some (.mismatch ("record " ++ name) (jsonTypeDescription v))
  | .enum name ns d sy df al ps =>
      if isValidDefault v (.enum name ns d sy df al ps) then none
      else some (.mismatch ("enum " ++ name) (jsonTypeDescription v))
  | .fixed name ns d sz al ps =>
      if isValidDefault v (.fixed name ns d sz al ps) then none
      else some (.mismatch ("fixed " ++ name) (jsonTypeDescription v))
  | .array i ps =>
      if isValidDefault v (.array i ps) then none
      else some (.mismatch "array" (jsonTypeDescription v))
  | .map i ps =>
      if isValidDefault v (.map i ps) then none
      else some (.mismatch "map" (jsonTypeDescription v))
  | .union ts b =>
      if isValidDefault v (.union ts b) then none
      else some (.mismatch "union" (jsonTypeDescription v))
  | .annotated k ps =>
      if isValidDefault v (.annotated k ps) then none
      else some (.mismatch k.asStr (jsonTypeDescription v))
  | .logical lt ps =>
      if isValidDefault v (.logical lt ps) then none
      else some (.mismatch (Schema.typeDescription (.logical lt ps)) (jsonTypeDescription v))
  | .ref .. => none
/-- The loop over provided field values, /repo/src/model/schema.rs 870-879. -/
def firstInvalidField (o : JMap) : List Field → Option DefaultReason
  | [] => none
  | .mk name s _ _ _ _ _ :: fs =>
      match o.get? name with
      | some fv =>
          match validateDefault fv s with
          | some r => some (.invalidField name r)
          | none => firstInvalidField o fs
      | none => firstInvalidField o fs
end

/-- Result of the fuel-bounded reference resolution: `timeout` means the fuel ran out,
`unresolved` is the code's `None`, `done` its `Some`. -/
inductive Resolved (α : Type) where
  | timeout
  | unresolved
  | done (a : α)

/-- Left-to-right loop over a list with early return. -/
def resolveLoop {α β : Type} (f : α → Resolved β) : List α → Resolved (List β)
  | [] => .done []
  | a :: as =>
      match f a with
      | .timeout => .timeout
      | .unresolved => .unresolved
      | .done b =>
          match resolveLoop f as with
          | .timeout => .timeout
          | .unresolved => .unresolved
          | .done bs => .done (b :: bs)

/-- Rebuilding a field with its resolved type, /repo/src/model/schema.rs 1017-1031. -/
def resolveField (f : Field) : Resolved Schema → Resolved Field
  | .timeout => .timeout
  | .unresolved => .unresolved
  | .done s => .done (f.withSchema s)

/-- `resolve_for_validation_inner`, /repo/src/model/schema.rs 961-1060.  The first argument is
fuel.  Simplification: the mutable `visited` set is passed down functionally; the code removes a
record's name again after its fields (line 1034), and when it returns early without removing
(line 1020) the whole computation returns `None`, so the set is never read afterwards.  (If the
name was already in the set, because inline definitions nest a record inside itself, the code's
removal is visible to later siblings; the registry's types never contain inline definitions.)
`resolveInnerM` (Verif/Visited.lean) has the mutable set, and C13_mutable_set the equality. -/
def resolveInner (resolver : String → Option Schema) :
    Nat → Schema → List String → Resolved Schema
  | 0, _, _ => .timeout
  | n + 1, s, visited =>
    match s with
    | .ref name ns ps sp =>
        if visited.contains (makeFullName name ns) then .done (.ref name ns ps sp)
        else match resolver (makeFullName name ns) with
          | none => .unresolved
          | some r => resolveInner resolver n r visited
    | .union ts b =>
        match resolveLoop (fun t => resolveInner resolver n t visited) ts with
        | .timeout => .timeout
        | .unresolved => .unresolved
        | .done ts' => .done (.union ts' b)
    | .record name ns d fields e al ps =>
        match resolveLoop (fun f => resolveField f
            (resolveInner resolver n f.schema (makeFullName name ns :: visited))) fields with
        | .timeout => .timeout
        | .unresolved => .unresolved
        | .done fs' => .done (.record name ns d fs' e al ps)
    | .array i ps =>
        match resolveInner resolver n i visited with
        | .timeout => .timeout
        | .unresolved => .unresolved
        | .done i' => .done (.array i' ps)
    | .map i ps =>
        match resolveInner resolver n i visited with
        | .timeout => .timeout
        | .unresolved => .unresolved
        | .done i' => .done (.map i' ps)
    | .prim p => .done (.prim p)
    | .enum a b c d e f g => .done (.enum a b c d e f g)
    | .fixed a b c d e f => .done (.fixed a b c d e f)
    | .annotated k ps => .done (.annotated k ps)
    | .logical lt ps => .done (.logical lt ps)

/-- `validate_record_field_defaults`, /repo/src/model/schema.rs 901-931; the outer `Option` is
fuel exhaustion. -/
def validateRecordFieldDefaults (resolver : String → Option Schema) (fuel : Nat) :
    Schema → Option (List (String × DefaultReason))
  | .record _ _ _ fields _ _ _ => go fields
  | _ => some []
where
  go : List Field → Option (List (String × DefaultReason))
  | [] => some []
  | f :: fs =>
      match f.default with
      | none => go fs
      | some v =>
          match resolveInner resolver fuel f.schema [] with
          | .timeout => none
          | .unresolved => go fs
          | .done r =>
              match validateDefault v r with
              | none => go fs
              | some reason => (go fs).map ((f.name, reason) :: ·)

end Avdl

import Verif.Registry
/-!
# JSON import

Model of the JSON half of /repo/src/import.rs (lines 153-369 and 386-889).
-/

namespace Avdl

/-- What the JSON importer finds wrong: the innermost message of its errors, /repo/src/import.rs
386-858. -/
inductive Defect where
  | invalidSchema (j : Json)
  | missingType
  | unknownType (t : String)
  | missingName (what : String)
  | missingSize
  | sizeTooLarge (n : Nat)
  | missingItems
  | missingValues
  | decimalPrecision
  | fieldNotObject
  | fieldMissingType
  | messageNotObject
deriving DecidableEq

/-- The contexts that `map_err` puts in front of a message, /repo/src/import.rs 322-327, 335-340,
509-511, 640, 656, 764, 813-814, 822 and 834-836.  `entry` is used on the way: the place in a list,
before the caller says what the list is. -/
inductive Step where
  | entry (index : Nat)
  | type (index : Nat)
  | message (name : String)
  | field (index : Nat) (record : String)
  | fieldType (field : String)
  | items
  | values
  | parameter (index : Nat)
  | response
  | error (index : Nat)
deriving DecidableEq

/-- Errors of the JSON importer: the contexts from the outside in, and the defect.  The outermost one
of a schema file, /repo/src/import.rs 364-365, says nothing but the path, which the compiler adds. -/
structure ImportErr where
  trail : List Step
  defect : Defect
deriving DecidableEq

/-- An error without context. -/
def Defect.here (d : Defect) : ImportErr := ⟨[], d⟩

/-- An error with one more context. -/
def ImportErr.within (e : ImportErr) (s : Step) : ImportErr := ⟨s :: e.trail, e.defect⟩

/-- An error in the rest of a list: the place counts from the beginning of the list. -/
def ImportErr.later (e : ImportErr) : ImportErr :=
  match e.trail with
  | .entry i :: t => ⟨.entry (i + 1) :: t, e.defect⟩
  | _ => e

/-- An error in a list, which is what the function says. -/
def ImportErr.inList (e : ImportErr) (f : Nat → Step) : ImportErr :=
  match e.trail with
  | .entry i :: t => ⟨f i :: t, e.defect⟩
  | _ => e

/-- An error in a union: its place is not mentioned, /repo/src/import.rs 393-397. -/
def ImportErr.inUnion (e : ImportErr) : ImportErr := ⟨e.trail.tail, e.defect⟩

/-- `obj.get(key).and_then(|v| v.as_str())`. -/
def getStr (obj : JMap) (key : String) : Option String := (obj.get? key).bind Json.asStr

/-- `obj.get(key).and_then(|v| v.as_u64())`. -/
def getU64 (obj : JMap) (key : String) : Option Nat := (obj.get? key).bind Json.asU64

/-- `u32::try_from(v).ok()`. -/
def toU32? (n : Nat) : Option Nat := if n < 2 ^ 32 then some n else none

/-- `string_to_schema`, /repo/src/import.rs 411-434. -/
def stringToSchema (s : String) (dflt : Option String) : Schema :=
  match Prim.ofStr? s with
  | some p => .prim p
  | none =>
    match splitFullName s with
    | (name, some ns) => .ref name (some ns) [] none
    | (_, none) => .ref s dflt [] none

/-- `extract_string_array`, /repo/src/import.rs 866-874. -/
def extractStringArray (v : Option Json) : List String :=
  match v with
  | some (.arr l) => l.filterMap Json.asStr
  | _ => []

/-- `collect_extra_properties`, /repo/src/import.rs 878-889. -/
def collectExtra (obj : JMap) (known : List String) : Props :=
  obj.filter fun kv => !known.contains kv.1

/-- `(name, namespace)` of a named type, /repo/src/import.rs 484-494, 540-550, 590-600. -/
def namedTypeName (obj : JMap) (dflt : Option String) : Option (String × Option String) :=
  match getStr obj "name" with
  | none => none
  | some raw =>
      let (name, inferred) := splitFullName raw
      some (name, ((getStr obj "namespace").or inferred).or dflt)

/-- Known keys of a record, /repo/src/import.rs 521-524. -/
def recordKeys : List String := ["type", "name", "namespace", "doc", "fields", "aliases"]
/-- Known keys of an enum, /repo/src/import.rs 562-573. -/
def enumKeys : List String := ["type", "name", "namespace", "doc", "symbols", "default", "aliases"]
/-- Known keys of a fixed, /repo/src/import.rs 613-616. -/
def fixedKeys : List String := ["type", "name", "namespace", "doc", "size", "aliases"]
/-- Known keys of a field, /repo/src/import.rs 783-784. -/
def fieldKeys : List String := ["name", "type", "doc", "default", "order", "aliases"]
/-- Known keys of a message, /repo/src/import.rs 847-848. -/
def messageKeys : List String := ["doc", "request", "response", "errors", "one-way"]
/-- Known keys of a logical type, /repo/src/import.rs 699-700. -/
def logicalKeys : List String := ["type", "logicalType", "precision", "scale"]

/-- `parse_enum`, /repo/src/import.rs 536-584. -/
def parseEnum (obj : JMap) (dflt : Option String) : Except ImportErr Schema :=
  match namedTypeName obj dflt with
  | none => .error (Defect.missingName "enum").here
  | some (name, ns) =>
      .ok (.enum name ns (getStr obj "doc") (extractStringArray (JMap.get? obj "symbols"))
        (getStr obj "default") (extractStringArray (JMap.get? obj "aliases"))
        (collectExtra obj enumKeys))

/-- `parse_fixed`, /repo/src/import.rs 586-626. -/
def parseFixed (obj : JMap) (dflt : Option String) : Except ImportErr Schema :=
  match namedTypeName obj dflt with
  | none => .error (Defect.missingName "fixed").here
  | some (name, ns) =>
    match getU64 obj "size" with
    | none => .error Defect.missingSize.here
    | some size =>
      match toU32? size with
      | none => .error (Defect.sizeTooLarge size).here
      | some size =>
        .ok (.fixed name ns (getStr obj "doc") size (extractStringArray (JMap.get? obj "aliases"))
          (collectExtra obj fixedKeys))

/-- `parse_annotated_primitive`, /repo/src/import.rs 676-726.  The type name has already been
parsed as `prim` (lines 454-456). -/
def parseAnnotatedPrimitive (obj : JMap) (prim : Prim) : Except ImportErr Schema :=
  match getStr obj "logicalType" with
  | some logical =>
    let precision := (getU64 obj "precision").bind toU32?
    let scale := (getU64 obj "scale").bind toU32?
    match parseLogicalType logical precision scale with
    | some (.decimal p s) =>
        if p < 1 then .error Defect.decimalPrecision.here
        else .ok (.logical (.decimal p s) (collectExtra obj logicalKeys))
    | some lt => .ok (.logical lt (collectExtra obj logicalKeys))
    | none => .ok (.annotated prim (collectExtra obj ["type"]))
  | none =>
    if (collectExtra obj ["type"]).isEmpty then .ok (.prim prim)
    else .ok (.annotated prim (collectExtra obj ["type"]))

/-- The order entry of `json_to_field`, /repo/src/import.rs 770-778. -/
def parseOrder (obj : JMap) : Option FieldOrder :=
  match getStr obj "order" with
  | none => none
  | some o =>
      if o = "ascending" then some .ascending
      else if o = "descending" then some .descending
      else if o = "ignore" then some .ignore
      else none

/-- The parts of `json_to_field` other than the type, /repo/src/import.rs 748-796. -/
def fieldOf (obj : JMap) (name : String) (schema : Schema) : Field :=
  .mk name schema (getStr obj "doc") (obj.get? "default") (parseOrder obj)
    (extractStringArray (JMap.get? obj "aliases")) (collectExtra obj fieldKeys)

mutual
/-- `json_to_schema`, /repo/src/import.rs 386-408. -/
def jsonToSchema (dflt : Option String) : Json → Except ImportErr Schema
  | .str s => .ok (stringToSchema s dflt)
  | .arr l =>
      match jsonToSchemaList dflt l with
      | .error e => .error e.inUnion
      | .ok ts => .ok (.union ts false)
  | .obj obj =>
    -- `object_to_schema`, /repo/src/import.rs 437-460
    match getStr obj "type" with
    | none => .error Defect.missingType.here
    | some t =>
      if t = "record" ∨ t = "error" then
        -- `parse_record`, /repo/src/import.rs 479-534
        match namedTypeName obj dflt with
        | none => .error (Defect.missingName "record").here
        | some (name, ns) =>
          match fieldsEntry (ns.or dflt) obj with
          | .error e => .error (e.inList fun i => .field i name)
          | .ok fields =>
            .ok (.record name ns (getStr obj "doc") fields (t = "error")
              (extractStringArray (JMap.get? obj "aliases")) (collectExtra obj recordKeys))
      else if t = "enum" then parseEnum obj dflt
      else if t = "fixed" then parseFixed obj dflt
      else if t = "array" then
        -- `parse_array`, /repo/src/import.rs 632-646
        match schemaEntry dflt "items" obj with
        | none => .error Defect.missingItems.here
        | some (.error e) => .error (e.within .items)
        | some (.ok s) => .ok (.array s (collectExtra obj ["type", "items"]))
      else if t = "map" then
        -- `parse_map`, /repo/src/import.rs 648-662
        match schemaEntry dflt "values" obj with
        | none => .error Defect.missingValues.here
        | some (.error e) => .error (e.within .values)
        | some (.ok s) => .ok (.map s (collectExtra obj ["type", "values"]))
      else match Prim.ofStr? t with
        | some p => parseAnnotatedPrimitive obj p
        | none => .error (Defect.unknownType t).here
  | .null => .error (Defect.invalidSchema .null).here
  | .bool b => .error (Defect.invalidSchema (.bool b)).here
  | .num n => .error (Defect.invalidSchema (.num n)).here
/-- Element-wise `json_to_schema`, stopping at the first error (lines 393-397, 830-839). -/
def jsonToSchemaList (dflt : Option String) : List Json → Except ImportErr (List Schema)
  | [] => .ok []
  | j :: js =>
      match jsonToSchema dflt j with
      | .error e => .error (e.within (.entry 0))
      | .ok s =>
        match jsonToSchemaList dflt js with
        | .error e => .error e.later
        | .ok ss => .ok (s :: ss)
/-- `json_to_schema(obj.get(key)?)`: `none` when the key is absent (lines 636-640, 652-656,
760-764, 820-826). -/
def schemaEntry (dflt : Option String) (key : String) :
    List (String × Json) → Option (Except ImportErr Schema)
  | [] => none
  | (k, v) :: t => if k = key then some (jsonToSchema dflt v) else schemaEntry dflt key t
/-- The `fields` entry of a record, /repo/src/import.rs 503-515: absent or non-array means no
fields. -/
def fieldsEntry (dflt : Option String) : List (String × Json) → Except ImportErr (List Field)
  | [] => .ok []
  | (k, v) :: t => if k = "fields" then fieldsOfJson dflt v else fieldsEntry dflt t
/-- The array case of lines 503-515 (also request parameters, lines 808-818). -/
def fieldsOfJson (dflt : Option String) : Json → Except ImportErr (List Field)
  | .arr l => jsonToFieldList dflt l
  | .null | .bool _ | .num _ | .str _ | .obj _ => .ok []
/-- Element-wise `json_to_field`. -/
def jsonToFieldList (dflt : Option String) : List Json → Except ImportErr (List Field)
  | [] => .ok []
  | j :: js =>
      match jsonToField dflt j with
      | .error e => .error (e.within (.entry 0))
      | .ok f =>
        match jsonToFieldList dflt js with
        | .error e => .error e.later
        | .ok fs => .ok (f :: fs)
/-- `json_to_field`, /repo/src/import.rs 748-796. -/
def jsonToField (dflt : Option String) : Json → Except ImportErr Field
  | .obj obj =>
    match getStr obj "name" with
    | none => .error (Defect.missingName "field").here
    | some name =>
      match schemaEntry dflt "type" obj with
      | none => .error Defect.fieldMissingType.here
      | some (.error e) => .error (e.within (.fieldType name))
      | some (.ok s) => .ok (fieldOf obj name s)
  | .null | .bool _ | .num _ | .str _ | .arr _ => .error Defect.fieldNotObject.here
end

/-- `json_to_message`, /repo/src/import.rs 798-858. -/
def jsonToMessage (dflt : Option String) (j : Json) : Except ImportErr Message :=
  match j with
  | .obj obj =>
    match (match JMap.get? obj "request" with
      | some r => fieldsOfJson dflt r
      | none => .ok []) with
    | .error e => .error (e.inList .parameter)
    | .ok request =>
      match (match schemaEntry dflt "response" obj with
        | some r => r
        | none => .ok (.prim .null)) with
      | .error e => .error (e.within .response)
      | .ok response =>
        match (match JMap.get? obj "errors" with
          | some (.arr es) => (jsonToSchemaList dflt es).map some
          | _ => .ok none) with
        | .error e => .error (e.inList .error)
        | .ok errors =>
          .ok { doc := getStr obj "doc", props := collectExtra obj messageKeys, request, response,
                errors, oneWay := ((JMap.get? obj "one-way").bind Json.asBool).getD false }
  | _ => .error Defect.messageNotObject.here

mutual
/-- `flatten_schema_inner`, /repo/src/import.rs 162-276.  The `collected` out-parameter is the
first component of the result: the types this call appends to it. -/
def flattenInner : Schema → List Schema × Schema
  | .record n ns d fs e al ps =>
      let r := flattenFields fs
      (r.1 ++ [.record n ns d r.2 e al ps], .ref n ns [] none)
  | .enum n ns d sy df al ps => ([.enum n ns d sy df al ps], .ref n ns [] none)
  | .fixed n ns d sz al ps => ([.fixed n ns d sz al ps], .ref n ns [] none)
  | .array i ps => let r := flattenInner i; (r.1, .array r.2 ps)
  | .map i ps => let r := flattenInner i; (r.1, .map r.2 ps)
  | .union ts b => let r := flattenList ts; (r.1, .union r.2 b)
  | .prim p => ([], .prim p)
  | .annotated k ps => ([], .annotated k ps)
  | .logical l ps => ([], .logical l ps)
  | .ref n ns ps sp => ([], .ref n ns ps sp)
/-- The field loop of `flatten_schema_inner`, lines 175-184. -/
def flattenFields : List Field → List Schema × List Field
  | [] => ([], [])
  | .mk n s d df o al ps :: fs =>
      let r := flattenInner s
      let rs := flattenFields fs
      (r.1 ++ rs.1, .mk n r.2 d df o al ps :: rs.2)
/-- The union loop of `flatten_schema_inner`, lines 262-265. -/
def flattenList : List Schema → List Schema × List Schema
  | [] => ([], [])
  | s :: ss =>
      let r := flattenInner s
      let rs := flattenList ss
      (r.1 ++ rs.1, r.2 :: rs.2)
end

/-- `flatten_schema`, /repo/src/import.rs 153-157. -/
def flattenSchema (s : Schema) : List Schema × Schema := flattenInner s

/-- `let _ = registry.register(t);` (line 289): failures are ignored. -/
def Registry.registerIgnore [CharTables] (r : Registry) (s : Schema) : Registry :=
  match r.register s with
  | .ok r' => r'
  | .error _ => r

/-- `flatten_and_register`, /repo/src/import.rs 286-291. -/
def flattenAndRegister [CharTables] (r : Registry) (s : Schema) : Registry :=
  (flattenSchema s).1.foldl Registry.registerIgnore r

/-- The type loop of `import_protocol`, /repo/src/import.rs 320-330. -/
def importTypes [CharTables] (dflt : Option String) :
    List Json → Registry → Except ImportErr Registry
  | [], r => .ok r
  | j :: js, r =>
      match jsonToSchema dflt j with
      | .error e => .error (e.within (.entry 0))
      | .ok s =>
        match importTypes dflt js (flattenAndRegister r s) with
        | .error e => .error e.later
        | .ok r' => .ok r'

/-- The message loop of `import_protocol`, /repo/src/import.rs 333-342. -/
def importMessages (dflt : Option String) :
    List (String × Json) → Except ImportErr (List (String × Message))
  | [] => .ok []
  | (n, j) :: js =>
      match jsonToMessage dflt j with
      | .error e => .error (e.within (.message n))
      | .ok m =>
        match importMessages dflt js with
        | .error e => .error e
        | .ok ms => .ok ((n, m) :: ms)

/-- `json.get(key)` on an arbitrary value. -/
def Json.get? (j : Json) (key : String) : Option Json :=
  match j with
  | .obj m => JMap.get? m key
  | _ => none

/-- `import_protocol`, /repo/src/import.rs 303-345, from the parsed JSON on.  The registry is
mutated type by type, so on error the types registered so far remain; the model returns the
registry only on success (a failed import aborts the compilation). -/
def importProtocol [CharTables] (j : Json) (r : Registry) :
    Except ImportErr (Registry × List (String × Message)) :=
  let dflt := (j.get? "namespace").bind Json.asStr
  match (match (j.get? "types").bind Json.asArr with
    | some ts => importTypes dflt ts r
    | none => .ok r) with
  | .error e => .error (e.inList .type)
  | .ok r =>
    match (match j.get? "messages" with
      | some (.obj ms) => importMessages dflt ms
      | _ => .ok []) with
    | .error e => .error e
    | .ok ms => .ok (r, ms)

/-- `import_schema`, /repo/src/import.rs 358-369, from the parsed JSON on. -/
def importSchema [CharTables] (j : Json) (r : Registry) : Except ImportErr Registry :=
  match jsonToSchema none j with
  | .error e => .error e
  | .ok s => .ok (flattenAndRegister r s)

end Avdl

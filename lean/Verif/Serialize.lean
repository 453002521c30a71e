import Verif.Schema
/-!
# JSON output

Model of /repo/src/model/json.rs.
-/

namespace Avdl

/-- `SchemaLookup`, /repo/src/model/json.rs 51: a `HashMap` that is only written with `insert`
and read with `get`; newest entry first, so that the first match is the last insertion. -/
abbrev Lookup := List (String × Schema)

/-- `lookup.get`. -/
def Lookup.get? : Lookup → String → Option Schema
  | [], _ => none
  | (k, s) :: t, key => if k = key then some s else Lookup.get? t key

/-- `namespace.as_deref().or(default_namespace)`. -/
def effectiveNs (ns dflt : Option String) : Option String := ns.or dflt

mutual
/-- `collect_named_types`, /repo/src/model/json.rs 125-170. -/
def collectNamed (dflt : Option String) : Schema → Lookup → Lookup
  | .record n ns d fs e al ps, lk =>
      collectNamedFields (effectiveNs ns dflt) fs
        ((makeFullName n (effectiveNs ns dflt), .record n ns d fs e al ps) :: lk)
  | .enum n ns d sy df al ps, lk =>
      (makeFullName n (effectiveNs ns dflt), .enum n ns d sy df al ps) :: lk
  | .fixed n ns d sz al ps, lk =>
      (makeFullName n (effectiveNs ns dflt), .fixed n ns d sz al ps) :: lk
  | .array i _, lk => collectNamed dflt i lk
  | .map i _, lk => collectNamed dflt i lk
  | .union ts _, lk => collectNamedList dflt ts lk
  | .prim _, lk | .annotated .., lk | .logical .., lk | .ref .., lk => lk
/-- The field loop of `collect_named_types`, lines 143-145. -/
def collectNamedFields (dflt : Option String) : List Field → Lookup → Lookup
  | [], lk => lk
  | .mk _ s _ _ _ _ _ :: fs, lk => collectNamedFields dflt fs (collectNamed dflt s lk)
/-- The union loop of `collect_named_types`, lines 164-166. -/
def collectNamedList (dflt : Option String) : List Schema → Lookup → Lookup
  | [], lk => lk
  | s :: ss, lk => collectNamedList dflt ss (collectNamed dflt s lk)
end

/-- `build_lookup`, /repo/src/model/json.rs 116-122. -/
def buildLookup (types : List Schema) (dflt : Option String) : Lookup :=
  collectNamedList dflt types []

/-- The `HashSet` of full names already emitted. -/
abbrev Known := List String

/-- `named_type_preamble`, /repo/src/model/json.rs 192-227. -/
def namedTypePreamble (typeStr name : String) (ns doc : Option String) (known : Known)
    (encl : Option String) : Except Json (JMap × Known) :=
  let full := makeFullName name ns
  if known.contains full then .error (.str (schemaRefName name ns encl))
  else
    let obj := JMap.insert "name" (.str name) (JMap.insert "type" (.str typeStr) [])
    let obj := match ns with
      | some n =>
          if ns ≠ encl ∧ ¬ (n = "" ∧ encl = none) then JMap.insert "namespace" (.str n) obj
          else obj
      | none => obj
    let obj := match doc with
      | some d => JMap.insert "doc" (.str d) obj
      | none => obj
    .ok (obj, full :: known)

/-- `finish_named_type`, /repo/src/model/json.rs 231-248. -/
def finishNamedType (obj : JMap) (props : Props) (aliases : List String) (ns : Option String) :
    JMap :=
  let obj := obj.insertAll props
  if aliases = [] then obj
  else JMap.insert "aliases" (.arr (aliases.map fun a => .str (aliasRefName a ns))) obj

/-- Threading the mutable set of known names through a loop that may run out of fuel. -/
def mapAccum {α β σ : Type} (f : α → σ → Option (β × σ)) : List α → σ → Option (List β × σ)
  | [], s => some ([], s)
  | a :: as, s =>
      match f a s with
      | none => none
      | some (b, s1) =>
          match mapAccum f as s1 with
          | none => none
          | some (bs, s2) => some (b :: bs, s2)

/-- `"order"` entry of `field_to_json`, /repo/src/model/json.rs 506-514. -/
def orderEntry (o : Option FieldOrder) (obj : JMap) : JMap :=
  match o with
  | some .descending => JMap.insert "order" (.str "descending") obj
  | some .ignore => JMap.insert "order" (.str "ignore") obj
  | some .ascending | none => obj

/-- The object built by `field_to_json`, /repo/src/model/json.rs 487-527, given the JSON of the
field's type. -/
def fieldObj (f : Field) (typeJson : Json) : JMap :=
  let obj := JMap.insert "type" typeJson (JMap.insert "name" (.str f.name) [])
  let obj := match f.doc with
    | some d => JMap.insert "doc" (.str d) obj
    | none => obj
  let obj := match f.default with
    | some v => JMap.insert "default" v obj
    | none => obj
  let obj := orderEntry f.order obj
  let obj := if f.aliases = [] then obj
    else JMap.insert "aliases" (.arr (f.aliases.map .str)) obj
  obj.insertAll f.props

/-- `field_to_json`, /repo/src/model/json.rs 487-527; `ser` is the recursive call. -/
def fieldToJson (ser : Schema → Known → Option (Json × Known)) (f : Field) (known : Known) :
    Option (Json × Known) :=
  match ser f.schema known with
  | none => none
  | some (j, known) => some (.obj (fieldObj f j), known)

/-- The object built for `AvroSchema::Logical`, /repo/src/model/json.rs 423-444. -/
def logicalObj (lt : LogicalType) (props : Props) : JMap :=
  let obj := JMap.insert "logicalType" (.str lt.name) (JMap.insert "type" (.str lt.base.asStr) [])
  let obj := match lt with
    | .decimal p s =>
        JMap.insert "scale" (.num (.int s)) (JMap.insert "precision" (.num (.int p)) obj)
    | _ => obj
  obj.insertAll props

/-- Type-specific part of the object built for an enum, /repo/src/model/json.rs 338-343. -/
def enumObj (symbols : List String) (default : Option String) (obj : JMap) : JMap :=
  let obj := JMap.insert "symbols" (.arr (symbols.map .str)) obj
  match default with
  | some d => JMap.insert "default" (.str d) obj
  | none => obj

/-- `schema_to_json`, /repo/src/model/json.rs 255-481.  The first argument is fuel (a bound on the
call depth); `none` means it ran out. -/
def schemaToJson (lk : Lookup) : Nat → Schema → Option String → Known → Option (Json × Known)
  | 0, _, _, _ => none
  | n + 1, s, encl, known =>
    match s with
    | .prim p => some (.str p.asStr, known)
    | .annotated k props =>
        some (.obj ((JMap.insert "type" (.str k.asStr) []).insertAll props), known)
    | .record name ns doc fields isErr aliases props =>
        match namedTypePreamble (if isErr then "error" else "record") name ns doc known encl with
        | .error bare => some (bare, known)
        | .ok (obj, known1) =>
            match mapAccum (fieldToJson fun s k => schemaToJson lk n s (ns.or encl) k)
                fields known1 with
            | none => none
            | some (fj, known2) =>
                some (.obj (finishNamedType (JMap.insert "fields" (.arr fj) obj) props aliases ns),
                  known2)
    | .enum name ns doc symbols default aliases props =>
        match namedTypePreamble "enum" name ns doc known encl with
        | .error bare => some (bare, known)
        | .ok (obj, known1) =>
            some (.obj (finishNamedType (enumObj symbols default obj) props aliases ns), known1)
    | .fixed name ns doc size aliases props =>
        match namedTypePreamble "fixed" name ns doc known encl with
        | .error bare => some (bare, known)
        | .ok (obj, known1) =>
            some (.obj (finishNamedType (JMap.insert "size" (.num (.int size)) obj) props aliases ns),
              known1)
    | .array items props =>
        match schemaToJson lk n items encl known with
        | none => none
        | some (j, known) =>
            some (.obj ((JMap.insert "items" j (JMap.insert "type" (.str "array") [])).insertAll
              props), known)
    | .map values props =>
        match schemaToJson lk n values encl known with
        | none => none
        | some (j, known) =>
            some (.obj ((JMap.insert "values" j (JMap.insert "type" (.str "map") [])).insertAll
              props), known)
    | .union types _ =>
        match mapAccum (fun s k => schemaToJson lk n s encl k) types known with
        | none => none
        | some (js, known) => some (.arr js, known)
    | .logical lt props => some (.obj (logicalObj lt props), known)
    | .ref name ns _ _ =>
        if known.contains (makeFullName name ns) then
          some (.str (schemaRefName name ns encl), known)
        else match lk.get? (makeFullName name ns) with
          | some resolved => schemaToJson lk n resolved encl known
          | none => some (.str (schemaRefName name ns encl), known)

/-- The object built by `message_to_json` once its parts are serialized,
/repo/src/model/json.rs 539-566. -/
def messageObj (m : Message) (request : List Json) (response : Json) (errors : Option (List Json)) :
    JMap :=
  let obj : JMap := match m.doc with
    | some d => JMap.insert "doc" (.str d) []
    | none => []
  let obj := obj.insertAll m.props
  let obj := JMap.insert "request" (.arr request) obj
  let obj := JMap.insert "response" response obj
  let obj := match errors with
    | some es => JMap.insert "errors" (.arr es) obj
    | none => obj
  if m.oneWay then JMap.insert "one-way" (.bool true) obj else obj

/-- `message_to_json`, /repo/src/model/json.rs 533-567. -/
def messageToJson (lk : Lookup) (n : Nat) (encl : Option String) (m : Message) (known : Known) :
    Option (Json × Known) :=
  match mapAccum (fieldToJson fun s k => schemaToJson lk n s encl k) m.request known with
  | none => none
  | some (req, known) =>
    match schemaToJson lk n m.response encl known with
    | none => none
    | some (resp, known) =>
      match m.errors with
      | none => some (.obj (messageObj m req resp none), known)
      | some es =>
        match mapAccum (fun s k => schemaToJson lk n s encl k) es known with
        | none => none
        | some (ej, known) => some (.obj (messageObj m req resp (some ej)), known)

/-- The object built by `protocol_to_json`, /repo/src/model/json.rs 61-104, from its parts. -/
def protocolObj (p : Protocol) (types : List Json) (messages : List (String × Json)) : JMap :=
  let obj := JMap.insert "protocol" (.str p.name) []
  let obj := match p.ns with
    | some ns => if ns = "" then obj else JMap.insert "namespace" (.str ns) obj
    | none => obj
  let obj := match p.doc with
    | some d => JMap.insert "doc" (.str d) obj
    | none => obj
  let obj := obj.insertAll p.props
  let obj := JMap.insert "types" (.arr (types.filter fun v => !v.isStr)) obj
  JMap.insert "messages" (.obj (JMap.insertAll [] messages)) obj

/-- `protocol_to_json`, /repo/src/model/json.rs 54-105. -/
def protocolToJson (n : Nat) (p : Protocol) : Option Json :=
  let lk := buildLookup p.types p.ns
  match mapAccum (fun s k => schemaToJson lk n s p.ns k) p.types [] with
  | none => none
  | some (types, known) =>
    match mapAccum (fun (nm : String × Message) k =>
        (messageToJson lk n p.ns nm.2 k).map fun jk => ((nm.1, jk.1), jk.2)) p.messages known with
    | none => none
    | some (msgs, _) => some (.obj (protocolObj p types msgs))

/-- `extract_impl`, /repo/src/compiler.rs 530-558: each registered schema is serialized on its
own, with its simple name.  All elements of a registry are named, so `continue` (line 545) is
modelled by dropping the entry. -/
def extractSchemas (n : Nat) (types : List Schema) : Option (List (String × Json)) :=
  let lk := buildLookup types none
  let rec go : List Schema → Option (List (String × Json))
    | [] => some []
    | s :: ss =>
        match s.name? with
        | none => go ss
        | some name =>
            match schemaToJson lk n s none [] with
            | none => none
            | some (j, _) => (go ss).map ((name, j) :: ·)
  go types

end Avdl

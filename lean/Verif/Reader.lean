import Verif.Ast
import Verif.Literals
import Verif.Defaults
/-!
# The reader

Model of the tree walk of /repo/src/reader.rs 2333-4551: from parse trees to schemas.
Simplification throughout: diagnostics carry no prose.
-/

namespace Avdl

/-- `str::to_uppercase`; the Unicode tables are a parameter. -/
class CaseTables where
  upper : String → String

/-- What is wrong, for the errors of the walk. -/
inductive ReadErr where
  | badInteger (text : String)
  | badFloat (text : String)
  | namespaceNotString
  | aliasesNotStrings
  | orderInvalid
  | reservedProperty (name : String)
  | illegalName (name : String)
  | duplicateField (field record : String)
  | duplicateSymbol (symbol : String)
  | defaultNotASymbol (symbol : String)
  | badFixedSize (name : String)
  | annotatedReference
  | nullableNull
  | badPrecision
  | badScale
  | nestedUnion
  | duplicateInUnion (key : String)
  | invalidDefault (field : String) (reason : DefaultReason)
  | duplicateParameter (param message : String)
  | onewayNotVoid (message : String)
deriving DecidableEq, Repr

/-- An error of the walk: a `ParseDiagnostic` made by `make_diagnostic` or
`make_diagnostic_from_token`, /repo/src/reader.rs 2257-2311.  The tree has the spans these compute
(`nodeSpan` and `parserTokens` of Verif/Parser.lean), `none` only if it has no positions. -/
structure Fault where
  err : ReadErr
  span : Option Span
deriving DecidableEq, Repr

/-- Warnings of the walk: `Warning::non_standard_alias_name`,
`Warning::annotations_dropped_on_union`, /repo/src/reader.rs 136-207, pushed at lines 2563-2567 and
3264-3269.  Their spans are computed as in `make_diagnostic`. -/
inductive WalkWarning where
  | nonStandardAlias (alias : String) (span : Option Span)
  | annotationsDropped (keys : List String) (span : Option Span)
deriving DecidableEq, Repr

/-- The `RefCell`s of `SourceInfo`, /repo/src/reader.rs 2209-2226: the doc comment tokens
consumed so far (a `HashSet`) and the warnings. -/
structure Log where
  consumed : List Nat
  warnings : List WalkWarning

/-- A step of the walk. -/
def W (α : Type) := Log → Except Fault (α × Log)

namespace W

def pure {α : Type} (a : α) : W α := fun l => .ok (a, l)

def bind {α β : Type} (m : W α) (f : α → W β) : W β := fun l =>
  match m l with
  | .error e => .error e
  | .ok (a, l') => f a l'

instance : Monad W where
  pure := W.pure
  bind := W.bind

/-- Fail. -/
def fail {α : Type} (e : ReadErr) (span : Option Span) : W α := fun _ => .error ⟨e, span⟩

/-- A computation without effects. -/
def lift {α : Type} : Except Fault α → W α
  | .ok a => fun l => .ok (a, l)
  | .error e => fun _ => .error e

/-- `src.warnings.borrow_mut().push(w)`. -/
def warn (w : WalkWarning) : W Unit := fun l =>
  .ok ((), { l with warnings := l.warnings ++ [w] })

/-- `consumed_doc_indices.insert(i)`. -/
def consume (i : Nat) : W Unit := fun l => .ok ((), { l with consumed := l.consumed ++ [i] })

/-- Fail if the condition holds. -/
def failIf (b : Bool) (e : ReadErr) (span : Option Span) : W Unit :=
  if b then fail e span else pure ()

end W

open W

/-! ## JSON values -/

mutual
/-- `walk_json_value` and `walk_json_literal`, /repo/src/reader.rs 3708-3760. -/
def walkJson [FloatTables] : JVal → Except Fault Json
  | .null => .ok .null
  | .true => .ok (.bool Bool.true)
  | .false => .ok (.bool Bool.false)
  | .str raw => .ok (.str (getStringFromLiteral raw))
  | .int text span =>
      match parseIntegerLiteral text with
      | some i => .ok (.num (.int i))
      | none => .error ⟨.badInteger text, span⟩
  | .float text span =>
      match parseFloatingPointLiteral text with
      | some j => .ok j
      | none => .error ⟨.badFloat text, span⟩
  | .arr l =>
      match walkJsonList l with
      | .ok js => .ok (.arr js)
      | .error e => .error e
  | .obj m =>
      match walkJsonPairs [] m with
      | .ok o => .ok (.obj o)
      | .error e => .error e
/-- `walk_json_array`, /repo/src/reader.rs 3785-3795. -/
def walkJsonList [FloatTables] : List JVal → Except Fault (List Json)
  | [] => .ok []
  | v :: vs =>
      match walkJson v with
      | .error e => .error e
      | .ok j =>
        match walkJsonList vs with
        | .error e => .error e
        | .ok js => .ok (j :: js)
/-- `walk_json_object`, /repo/src/reader.rs 3762-3783. -/
def walkJsonPairs [FloatTables] (acc : JMap) : List (String × JVal) → Except Fault JMap
  | [] => .ok acc
  | (k, v) :: ps =>
      match walkJson v with
      | .error e => .error e
      | .ok j => walkJsonPairs (JMap.insert (getStringFromLiteral k) j acc) ps
end

/-! ## Annotations -/

/-- `SchemaProperties`, /repo/src/reader.rs 2342-2358. -/
structure SchemaProps where
  ns : Option String := none
  aliases : List String := []
  order : Option FieldOrder := none
  props : Props := []

/-- `PropertyContext`, /repo/src/reader.rs 2377-2387. -/
structure PropCtx where
  withNamespace : Bool
  withAliases : Bool
  withOrder : Bool
  reserved : List String

/-- `SCHEMA_RESERVED`, /repo/src/reader.rs 2400-2411. -/
def schemaReserved : List String :=
  ["doc", "fields", "items", "name", "namespace", "size", "symbols", "values", "type", "aliases"]
/-- `ENUM_RESERVED`, /repo/src/reader.rs 2415-2427. -/
def enumReserved : List String :=
  ["doc", "fields", "items", "name", "namespace", "size", "symbols", "values", "type", "aliases",
   "default"]
/-- `FIELD_RESERVED`, /repo/src/reader.rs 2431. -/
def fieldReserved : List String := ["default", "doc", "name", "order", "type", "aliases"]
/-- `PROTOCOL_RESERVED`, /repo/src/reader.rs 2439-2446. -/
def protocolReserved : List String :=
  ["namespace", "protocol", "doc", "messages", "types", "errors"]
/-- `MESSAGE_RESERVED`, /repo/src/reader.rs 2450. -/
def messageReserved : List String := ["doc", "response", "request", "errors", "one-way"]

/-- `PROTOCOL_PROPS`, /repo/src/reader.rs 2454-2459. -/
def protocolCtx : PropCtx := ⟨true, false, false, protocolReserved⟩
/-- `NAMED_TYPE_PROPS`, /repo/src/reader.rs 2463-2468. -/
def namedCtx : PropCtx := ⟨true, true, false, schemaReserved⟩
/-- `ENUM_PROPS`, /repo/src/reader.rs 2472-2477. -/
def enumCtx : PropCtx := ⟨true, true, false, enumReserved⟩
/-- `VARIABLE_PROPS`, /repo/src/reader.rs 2481-2486. -/
def variableCtx : PropCtx := ⟨false, true, true, fieldReserved⟩
/-- `BARE_PROPS`, /repo/src/reader.rs 2491-2496. -/
def bareCtx : PropCtx := ⟨false, false, false, schemaReserved⟩
/-- `MESSAGE_PROPS`, /repo/src/reader.rs 2499-2504. -/
def messageCtx : PropCtx := ⟨false, false, false, messageReserved⟩

/-- The alias loop, /repo/src/reader.rs 2547-2577: any string is accepted, with a warning if some
dot-separated segment is not a legal name.  `span` is that of the annotation. -/
def walkAliases [CharTables] (span : Option Span) : List Json → W (List String)
  | [] => W.pure []
  | .str s :: js =>
      W.bind (if (dotSegments s).all isValidAvroName then W.pure () else
          warn (.nonStandardAlias s span))
        fun _ => W.bind (walkAliases span js) fun rest => W.pure (s :: rest)
  | _ :: _ => fail .aliasesNotStrings span

/-- `@order`, /repo/src/reader.rs 2586-2607. -/
def parseOrderAnnot [CaseTables] : Json → Option FieldOrder
  | .str s =>
      if CaseTables.upper s = "ASCENDING" then some .ascending
      else if CaseTables.upper s = "DESCENDING" then some .descending
      else if CaseTables.upper s = "IGNORE" then some .ignore
      else none
  | _ => none

section
variable [CharTables] [FloatTables] [CaseTables]

/-- One iteration of `walk_schema_properties`, /repo/src/reader.rs 2533-2622, on the evaluated
annotation, whose span is given. -/
def annotStep (ctx : PropCtx) (acc : SchemaProps) (name : String) (value : Json)
    (span : Option Span) : W SchemaProps :=
  if ctx.withNamespace && name == "namespace" then
    match value with
    | .str s => W.pure { acc with ns := some s }
    | _ => fail .namespaceNotString span
  else if ctx.withAliases && name == "aliases" then
    match value with
    | .arr l => W.bind (walkAliases span l) fun al => W.pure { acc with aliases := al }
    | _ => fail .aliasesNotStrings span
  else if ctx.withOrder && name == "order" then
    match parseOrderAnnot value with
    | some o => W.pure { acc with order := some o }
    | none => fail .orderInvalid span
  else if ctx.reserved.contains name then fail (.reservedProperty name) span
  else W.pure { acc with props := acc.props.insert name value }

/-- `walk_schema_properties`, /repo/src/reader.rs 2510-2626. -/
def walkAnnots (ctx : PropCtx) : SchemaProps → List Annot → W SchemaProps
  | acc, [] => W.pure acc
  | acc, a :: as =>
      W.bind (lift (walkJson a.value)) fun v =>
        W.bind (annotStep ctx acc (identifierText a.name) v a.span) fun acc' => walkAnnots ctx acc' as

/-! ## Types -/

/-- `extract_name`, /repo/src/reader.rs 4208-4211. -/
def extractName (ident : String) : String := (splitFullName ident).1

/-- `compute_namespace`, /repo/src/reader.rs 4220-4229. -/
def computeNamespace (ident : String) (explicit : Option String) : Option String :=
  match (splitFullName ident).2 with
  | some ns => some ns
  | none => explicit

/-- A named reference, /repo/src/reader.rs 3318-3334 (also 3643-3659).  The `rsplit_once('.')`
there is what `split_full_name` does. -/
def refTo (ident : String) (span : Option Span) (ns : Option String) : Schema :=
  match splitFullName ident with
  | (name, some ns') => .ref name (some ns') [] span
  | (_, none) => .ref ident ns [] span

/-- `walk_primitive_type`, /repo/src/reader.rs 3360-3464. -/
def walkPrim : PrimTok → Except Fault Schema
  | .prim p => .ok (.prim p)
  | .date => .ok (.logical .date [])
  | .time => .ok (.logical .timeMillis [])
  | .timestamp => .ok (.logical .timestampMillis [])
  | .localTimestamp => .ok (.logical .localTimestampMillis [])
  | .uuid => .ok (.logical .uuid [])
  | .decimal ptext pspan stext =>
      match parseIntegerAsU32 ptext with
      | none => .error ⟨.badPrecision, pspan⟩
      | some precision =>
        if precision = 0 then .error ⟨.badPrecision, pspan⟩
        else match (match stext with
            | none => some 0
            | some t => parseIntegerAsU32 t.1) with
          | none => .error ⟨.badScale, stext.bind Prod.snd⟩
          | some scale =>
            if precision < scale then .error ⟨.badScale, stext.bind Prod.snd⟩
            else .ok (.logical (.decimal precision scale) [])

/-- The `?` handling of `walk_nullable_type`, /repo/src/reader.rs 3342-3356. -/
def wrapOptional (optional : Bool) (span : Option Span) (base : Schema) : Except Fault Schema :=
  if optional then
    match base with
    | .prim .null => .error ⟨.nullableNull, span⟩
    | s => .ok (.union [.prim .null, s] true)
  else .ok base

/-- `is_type_reference`, /repo/src/reader.rs 4234-4246. -/
def isTypeReference : Schema → Bool
  | .ref .. => true
  | .union ts true => ts.any fun t => match t with
      | .ref .. => true
      | _ => false
  | _ => false

/-- `is_non_nullable_union`, /repo/src/reader.rs 4252-4261. -/
def isNonNullableUnion : Schema → Bool
  | .union ts nullable => !(nullable && ts.length == 2)
  | _ => false

/-- `json_value_as_u32`, /repo/src/reader.rs 4446-4464.  A float `±m·2^e` is accepted if it is a
whole number in range: then its value is `m·2^e` for `e ≥ 0` and `m / 2^(-e)` otherwise. -/
def jsonValueAsU32 : Json → Option Nat
  | .num (.int i) =>
      if 0 ≤ i ∧ i < 2 ^ 32 then some i.toNat else none
  | .num (.float neg m e) =>
      if m = 0 then some 0
      else if neg then none
      else
        let scaled : Option Nat :=
          if 0 ≤ e then (if e ≤ 32 then some (m * 2 ^ e.toNat) else none)
          else if m % 2 ^ (-e).toNat = 0 then some (m / 2 ^ (-e).toNat) else none
        match scaled with
        | some v => if v < 2 ^ 32 then some v else none
        | none => none
  | _ => none

/-- `.filter(|&v| v <= i32::MAX as u32)`. -/
def asJavaInt (v : Option Json) : Option Nat :=
  match v.bind jsonValueAsU32 with
  | some n => if n ≤ 2 ^ 31 - 1 then some n else none
  | none => none

/-- The properties left after promotion, /repo/src/reader.rs 4385-4391. -/
def consumedProps (lt : LogicalType) (ps : Props) : Props :=
  match lt with
  | .decimal _ _ => ((ps.erase "logicalType").erase "precision").erase "scale"
  | _ => ps.erase "logicalType"

/-- `try_promote_logical_type`, /repo/src/reader.rs 4349-4441.  The branch for fixed schemas
returns its argument unchanged; the result of `validate_logical_type_on_fixed`
(/repo/src/model/schema.rs 253-278) is not used. -/
def tryPromote : Schema → Schema
  | .annotated kind ps =>
      match ps.get? "logicalType" with
      | some (.str lname) =>
          match parseLogicalType lname (asJavaInt (ps.get? "precision"))
              (asJavaInt (ps.get? "scale")) with
          | none => .annotated kind ps
          | some lt =>
              if lt.base ≠ kind then .annotated kind ps
              else .logical lt (consumedProps lt ps)
      | _ => .annotated kind ps
  | s => s

/-- `apply_properties_to_schema`, /repo/src/reader.rs 4327-4332. -/
def applyToSchema (s : Schema) (ps : Props) : Schema := tryPromote (s.withMergedProps ps)

/-- Comparison with `AvroSchema::Null`. -/
def Schema.isNull : Schema → Bool
  | .prim .null => true
  | _ => false

/-- `apply_properties`, /repo/src/reader.rs 4296-4320. -/
def applyProps (s : Schema) (ps : Props) : Schema :=
  match s with
  | .union [a, b] true =>
      if a.isNull then .union [a, applyToSchema b ps] true
      else .union [applyToSchema a ps, b] true
  | s => applyToSchema s ps

/-- The first of a list of spans, /repo/src/reader.rs 3519 and 3537 (`ft_ctxs[i]`).  The lists below
are as long as those they belong to, so there is always one. -/
def headSpan (spans : List (Option Span)) : Option Span := spans.head?.join

/-- Left-to-right search for a repeated key, /repo/src/reader.rs 3531-3541, with the span of the
second. -/
def firstDuplicate : List String → List String → List (Option Span) →
    Option (String × Option Span)
  | _, [], _ => none
  | seen, k :: ks, spans =>
      if seen.contains k then some (k, headSpan spans)
      else firstDuplicate (seen ++ [k]) ks spans.tail

/-- Does the schema have the form of a union? -/
def Schema.isUnion : Schema → Bool
  | .union .. => true
  | _ => false

/-- Left-to-right search for a union, /repo/src/reader.rs 3515-3525, with its span. -/
def firstUnion : List Schema → List (Option Span) → Option (Option Span)
  | [], _ => none
  | t :: ts, spans => if t.isUnion then some (headSpan spans) else firstUnion ts spans.tail

/-- The checks of `walk_union_type`, /repo/src/reader.rs 3512-3546, on the types and the spans of
the members. -/
def checkUnion (types : List Schema) (spans : List (Option Span)) : Except Fault Schema :=
  match firstUnion types spans with
  | some span => .error ⟨.nestedUnion, span⟩
  | none =>
    match firstDuplicate [] (types.map Schema.unionKey) spans with
    | some k => .error ⟨.duplicateInUnion k.1, k.2⟩
    | none => .ok (.union types false)

/-- The end of `walk_full_type`, /repo/src/reader.rs 3251-3279: applying the annotations.
`span` is that of the type with its annotations. -/
def finishFullType (ps : Props) (span : Option Span) (s : Schema) : W Schema :=
  if ps.isEmpty then W.pure s
  else if isTypeReference s then fail .annotatedReference span
  else W.bind (if isNonNullableUnion s then warn (.annotationsDropped (ps.map Prod.fst) span)
      else W.pure ()) fun _ => W.pure (applyProps s ps)

/-- The span of a type with its annotations. -/
def FullType.span : FullType → Option Span
  | .mk _ _ span => span

mutual
/-- `walk_full_type`, /repo/src/reader.rs 3231-3280. -/
def walkFullType (ns : Option String) : FullType → W Schema
  | .mk annots type span =>
      W.bind (walkAnnots bareCtx {} annots) fun p =>
        W.bind (walkPlainType ns type) fun s => finishFullType p.props span s
/-- `walk_plain_type`, `walk_nullable_type`, `walk_array_type`, `walk_map_type`,
`walk_union_type`, /repo/src/reader.rs 3283-3357 and 3467-3547. -/
def walkPlainType (ns : Option String) : PlainType → W Schema
  | .array t => W.bind (walkFullType ns t) fun s => W.pure (.array s [])
  | .map t => W.bind (walkFullType ns t) fun s => W.pure (.map s [])
  | .union ts => W.bind (walkFullTypes ns ts) fun ss =>
      lift (checkUnion ss (ts.map FullType.span))
  | .prim p optional span =>
      W.bind (lift (walkPrim p)) fun s => lift (wrapOptional optional span s)
  | .named ident span optional =>
      lift (wrapOptional optional span (refTo (identifierText ident) span ns))
/-- The member loop of `walk_union_type`, lines 3507-3510. -/
def walkFullTypes (ns : Option String) : List FullType → W (List Schema)
  | [] => W.pure []
  | t :: ts =>
      W.bind (walkFullType ns t) fun s => W.bind (walkFullTypes ns ts) fun ss => W.pure (s :: ss)
end

/-! ## Fields -/

/-- `extract_doc_from_context`, /repo/src/reader.rs 4472-4487. -/
def walkDoc (tokens : List Token) (start : Nat) : W (Option String) :=
  match extractDocComment tokens start with
  | (some i, doc) => W.bind (consume i) fun _ => W.pure doc
  | (none, doc) => W.pure doc

/-- `fix_optional_schema`, /repo/src/reader.rs 4266-4291. -/
def fixOptional (s : Schema) (default : Option Json) : Schema :=
  match s with
  | .union [a, b] true =>
      match default with
      | none | some .null => .union [a, b] true
      | some _ => .union [b, a] true
  | s => s

/-- `walk_json_value` on an optional default. -/
def walkDefault : Option JVal → Except Fault (Option Json)
  | none => .ok none
  | some v =>
      match walkJson v with
      | .ok j => .ok (some j)
      | .error e => .error e

/-- The validation of `walk_variable`, /repo/src/reader.rs 3041-3062; `span` is that of the default
value. -/
def checkDefault (field : String) (span : Option Span) (default : Option Json) (type : Schema) :
    W Unit :=
  match default with
  | none => W.pure ()
  | some v =>
      match validateDefault v type with
      | none => W.pure ()
      | some r => fail (.invalidDefault field r) span

/-- `walk_variable`, /repo/src/reader.rs 2995-3073. -/
def walkVariable (tokens : List Token) (type : Schema) (defaultDoc : Option String)
    (v : VarDecl) : W Field :=
  W.bind (walkDoc tokens v.start) fun varDoc =>
  W.bind (walkAnnots variableCtx {} v.annots) fun p =>
  W.bind (lift (walkDefault v.default)) fun dflt =>
  W.bind (checkDefault (identifierText v.ident) v.defaultSpan dflt (fixOptional type dflt)) fun _ =>
  W.pure (.mk (identifierText v.ident) (fixOptional type dflt) (varDoc.or defaultDoc) dflt
    p.order p.aliases p.props)

/-- The variable loop of `walk_field_declaration`, /repo/src/reader.rs 2974-2986. -/
def walkVariables (tokens : List Token) (type : Schema) (defaultDoc : Option String) :
    List VarDecl → W (List Field)
  | [] => W.pure []
  | v :: vs =>
      W.bind (walkVariable tokens type defaultDoc v) fun f =>
        W.bind (walkVariables tokens type defaultDoc vs) fun fs => W.pure (f :: fs)

/-- `walk_field_declaration`, /repo/src/reader.rs 2956-2989. -/
def walkField (tokens : List Token) (ns : Option String) (d : FieldDecl) : W (List Field) :=
  W.bind (walkDoc tokens d.start) fun doc =>
  W.bind (walkFullType ns d.type) fun type => walkVariables tokens type doc d.vars

/-- The duplicate check of `walk_record`, /repo/src/reader.rs 2886-2914: the names seen so far
extended by the new fields.  `spans` are those of the names. -/
def checkFieldNames (record : String) : List String → List Field → List (Option Span) →
    W (List String)
  | seen, [], _ => W.pure seen
  | seen, f :: fs, spans =>
      if seen.contains f.name then fail (.duplicateField f.name record) (headSpan spans)
      else checkFieldNames record (seen ++ [f.name]) fs spans.tail

/-- The field loop of `walk_record`, /repo/src/reader.rs 2875-2928. -/
def walkFields (tokens : List Token) (ns : Option String) (record : String) :
    List String → List FieldDecl → W (List Field)
  | _, [] => W.pure []
  | seen, d :: ds =>
      W.bind (walkField tokens ns d) fun fs =>
      W.bind (checkFieldNames record seen fs (d.vars.map VarDecl.identSpan)) fun seen' =>
      W.bind (walkFields tokens ns record seen' ds) fun rest => W.pure (fs ++ rest)

/-- The default-value spans, /repo/src/reader.rs 2915-2925. -/
def fieldSpans (d : RecordDecl) : List (String × Span) :=
  (d.fields.flatMap FieldDecl.vars).filterMap fun v =>
    v.valueSpan.map fun s => (identifierText v.ident, s)

/-! ## Named types -/

/-- `walk_record`, /repo/src/reader.rs 2824-2945.  The `&mut` parameter `namespace` is passed in
and out: it is set to the record's namespace for the body and restored at the end. -/
def walkRecord (tokens : List Token) (ns : Option String) (d : RecordDecl) :
    W (Schema × Option String) :=
  W.bind (walkDoc tokens d.start) fun doc =>
  W.bind (walkAnnots namedCtx {} d.annots) fun p =>
    let ident := identifierText d.ident
    let recordNs := (computeNamespace ident p.ns).or ns
    let name := extractName ident
    W.bind (failIf (isInvalidTypeName name) (.illegalName name) d.identSpan) fun _ =>
    let saved := ns
    let ns := if recordNs.isSome then recordNs else ns
    W.bind (walkFields tokens ns name [] d.fields) fun fields =>
    W.pure (.record name recordNs doc fields d.isError p.aliases p.props, saved)

/-- The symbol loop of `walk_enum`, /repo/src/reader.rs 3107-3122. -/
def checkSymbols : List String → List (String × Option Span) → W (List String)
  | seen, [] => W.pure seen
  | seen, s :: ss =>
      if seen.contains (identifierText s.1) then fail (.duplicateSymbol (identifierText s.1)) s.2
      else checkSymbols (seen ++ [identifierText s.1]) ss

/-- The default of `walk_enum`, /repo/src/reader.rs 3127-3146. -/
def checkEnumDefault (symbols : List String) : Option (String × Option Span) → W (Option String)
  | none => W.pure none
  | some s =>
      if symbols.contains (identifierText s.1) then W.pure (some (identifierText s.1))
      else fail (.defaultNotASymbol (identifierText s.1)) s.2

/-- `walk_enum`, /repo/src/reader.rs 3079-3157. -/
def walkEnum (tokens : List Token) (ns : Option String) (d : EnumDecl) : W Schema :=
  W.bind (walkDoc tokens d.start) fun doc =>
  W.bind (walkAnnots enumCtx {} d.annots) fun p =>
    let ident := identifierText d.ident
    let enumNs := (computeNamespace ident p.ns).or ns
    let name := extractName ident
    W.bind (failIf (isInvalidTypeName name) (.illegalName name) d.identSpan) fun _ =>
    W.bind (checkSymbols [] d.symbols) fun symbols =>
    W.bind (checkEnumDefault symbols d.default) fun dflt =>
    W.pure (.enum name enumNs doc symbols dflt p.aliases p.props)

/-- `walk_fixed`, /repo/src/reader.rs 3163-3223. -/
def walkFixed (tokens : List Token) (ns : Option String) (d : FixedDecl) : W Schema :=
  W.bind (walkDoc tokens d.start) fun doc =>
  W.bind (walkAnnots namedCtx {} d.annots) fun p =>
    let ident := identifierText d.ident
    let fixedNs := (computeNamespace ident p.ns).or ns
    let name := extractName ident
    W.bind (failIf (isInvalidTypeName name) (.illegalName name) d.identSpan) fun _ =>
    match parseIntegerAsU32 d.size with
    | none => fail (.badFixedSize name) d.sizeSpan
    | some size => W.pure (tryPromote (.fixed name fixedNs doc size p.aliases p.props))

/-- `walk_named_schema_no_register`, /repo/src/reader.rs 2788-2813, with the namespace passed in
and out. -/
def walkNamed (tokens : List Token) (ns : Option String) : NamedDecl → W (Schema × Option String)
  | .record d => walkRecord tokens ns d
  | .enum d => W.bind (walkEnum tokens ns d) fun s => W.pure (s, ns)
  | .fixed d => W.bind (walkFixed tokens ns d) fun s => W.pure (s, ns)

/-- The field spans returned with a schema, /repo/src/reader.rs 2788-2813. -/
def NamedDecl.spans : NamedDecl → List (String × Span)
  | .record d => fieldSpans d
  | .enum _ | .fixed _ => []

/-! ## Messages -/

/-- The parameter loop of `walk_message`, /repo/src/reader.rs 3588-3622. -/
def walkParams (tokens : List Token) (ns : Option String) (message : String) :
    List String → List Param → W (List Field)
  | _, [] => W.pure []
  | seen, p :: ps =>
      W.bind (walkDoc tokens p.start) fun doc =>
      W.bind (walkFullType ns p.type) fun type =>
      W.bind (walkVariable tokens type doc p.var) fun f =>
        if seen.contains f.name then fail (.duplicateParameter f.name message) p.span
        else W.bind (walkParams tokens ns message (seen ++ [f.name]) ps) fun fs =>
          W.pure (f :: fs)

/-- `walk_result_type`, /repo/src/reader.rs 3686-3702. -/
def walkResult (ns : Option String) : Option PlainType → W Schema
  | none => W.pure (.prim .null)
  | some t => walkPlainType ns t

/-- The error list of `walk_message`, /repo/src/reader.rs 3640-3670. -/
def messageErrors (ns : Option String) : List (String × Option Span) → Option (List Schema)
  | [] => none
  | es => some (es.map fun e => refTo (identifierText e.1) e.2 ns)

/-- `walk_message`, /repo/src/reader.rs 3553-3683. -/
def walkMessage (tokens : List Token) (ns : Option String) (d : MessageDecl) :
    W (String × Message) :=
  W.bind (walkDoc tokens d.start) fun doc =>
  W.bind (walkAnnots messageCtx {} d.annots) fun p =>
  W.bind (walkResult ns d.result) fun response =>
  W.bind (failIf (!p.props.isEmpty && isTypeReference response) .annotatedReference d.span)
      fun _ =>
    let name := identifierText d.ident
    W.bind (walkParams tokens ns name [] d.params) fun request =>
    W.bind (failIf (d.oneway && !response.isNull) (.onewayNotVoid name) d.span) fun _ =>
    W.pure (name, { doc, props := p.props, request, response,
                    errors := messageErrors ns d.errors, oneWay := d.oneway })

/-! ## Files -/

/-- `ImportEntry`, /repo/src/reader.rs 1946-1952. -/
structure ImportEntry where
  kind : ImportKind
  path : String
  span : Option Span
deriving DecidableEq

/-- `DeclItem`, /repo/src/reader.rs 1967-1987. -/
inductive DeclItem where
  | import_ (e : ImportEntry)
  | type (s : Schema) (span : Option Span) (fieldSpans : List (String × Span))
deriving DecidableEq

/-- `IdlFile`, /repo/src/reader.rs 1932-1941. -/
inductive IdlFile where
  | protocol (p : Protocol)
  | schema (s : Schema)
  | named (ss : List Schema)
deriving DecidableEq

/-- `collect_single_import`, /repo/src/reader.rs 4529-4551. -/
def importEntry (i : ImportStmt) : ImportEntry :=
  { kind := i.kind, path := getStringFromLiteral i.location, span := i.span }

/-- `HashMap::insert` for messages. -/
def insertMessage (ms : List (String × Message)) (name : String) (m : Message) :
    List (String × Message) :=
  ms.filter (fun kv => kv.1 ≠ name) ++ [(name, m)]

/-- The body loop of `walk_protocol`, /repo/src/reader.rs 2749-2769: messages, declarations and the
namespace afterwards. -/
def walkBody (tokens : List Token) : Option String → List (String × Message) → List BodyItem →
    W (List (String × Message) × List DeclItem × Option String)
  | ns, ms, [] => W.pure (ms, [], ns)
  | ns, ms, .import_ i :: items =>
      W.bind (walkBody tokens ns ms items) fun r =>
        W.pure (r.1, .import_ (importEntry i) :: r.2.1, r.2.2)
  | ns, ms, .named d span :: items =>
      W.bind (walkNamed tokens ns d) fun s =>
      W.bind (walkBody tokens s.2 ms items) fun r =>
        W.pure (r.1, .type s.1 span d.spans :: r.2.1, r.2.2)
  | ns, ms, .message m :: items =>
      W.bind (walkMessage tokens ns m) fun nm =>
        walkBody tokens ns (insertMessage ms nm.1 nm.2) items

/-- `walk_protocol`, /repo/src/reader.rs 2703-2781. -/
def walkProtocol (tokens : List Token) (d : ProtocolDecl) : W (Protocol × List DeclItem) :=
  W.bind (walkDoc tokens d.start) fun doc =>
  W.bind (walkAnnots protocolCtx {} d.annots) fun p =>
    let ident := identifierText d.ident
    let ns := computeNamespace ident p.ns
    let name := extractName ident
    W.bind (failIf (isInvalidTypeName name) (.illegalName name) d.identSpan) fun _ =>
    W.bind (walkBody tokens ns [] d.body) fun r =>
    W.pure ({ name, ns := r.2.2, doc, props := p.props, types := [], messages := r.1 }, r.2.1)

/-- The body loop of `walk_idl_file`, /repo/src/reader.rs 2664-2679: local schemas, declarations
and the namespace afterwards. -/
def walkItems (tokens : List Token) : Option String → List FileItem →
    W (List Schema × List DeclItem × Option String)
  | ns, [] => W.pure ([], [], ns)
  | ns, .import_ i :: items =>
      W.bind (walkItems tokens ns items) fun r =>
        W.pure (r.1, .import_ (importEntry i) :: r.2.1, r.2.2)
  | ns, .named d span :: items =>
      W.bind (walkNamed tokens ns d) fun s =>
      W.bind (walkItems tokens s.2 items) fun r =>
        W.pure (s.1 :: r.1, .type s.1 span d.spans :: r.2.1, r.2.2)

/-- `walk_idl_file`, /repo/src/reader.rs 2634-2695. -/
def walkFile (tokens : List Token) : FileAst → W (IdlFile × List DeclItem)
  | .protocol d => W.bind (walkProtocol tokens d) fun r => W.pure (.protocol r.1, r.2)
  | .schema nsIdent main body =>
      let ns := nsIdent.map identifierText
      W.bind (walkItems tokens ns body) fun r =>
      match main with
      | some t => W.bind (walkFullType r.2.2 t) fun s => W.pure (.schema s, r.2.1)
      | none => W.pure (.named r.1, r.2.1)

/-- `collect_orphaned_doc_comment_warnings`, /repo/src/reader.rs 4497-4525: the indices of the
doc comments no declaration consumed. -/
def orphanedDocs (tokens : List Token) (consumed : List Nat) : List Nat :=
  (List.range tokens.length).filter fun i =>
    (match tokens[i]? with
      | some t => t.type == .doc
      | none => false) && !consumed.contains i

/-- The outcome of `parse_idl_named` from the tree walk on, /repo/src/reader.rs 2157-2195:
file, declarations, orphaned doc comments and the warnings of the walk. -/
structure ReadResult where
  file : IdlFile
  decls : List DeclItem
  orphans : List Nat
  warnings : List WalkWarning

/-- `parse_idl_named` from the tree walk on, /repo/src/reader.rs 2157-2195. -/
def readFile (tokens : List Token) (ast : FileAst) : Except Fault ReadResult :=
  match walkFile tokens ast { consumed := [], warnings := [] } with
  | .error e => .error e
  | .ok (r, log) =>
      .ok { file := r.1, decls := r.2, orphans := orphanedDocs tokens log.consumed,
            warnings := log.warnings }

end

end Avdl

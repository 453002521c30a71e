import Verif.Lemmas.MuteParse
/-!
# Documentation and the reader

Schemas without positions and documentation and without documentation: what the reader makes of a tree depends
on both only in what it passes on.
-/

namespace Avdl

mutual
/-- A schema without positions and documentation. -/
def Schema.mute : Schema → Schema
  | .prim p => .prim p
  | .record n ns _ fs e al ps => .record n ns none (muteFields fs) e al ps
  | .enum n ns _ sy df al ps => .enum n ns none sy df al ps
  | .fixed n ns _ sz al ps => .fixed n ns none sz al ps
  | .array i ps => .array i.mute ps
  | .map i ps => .map i.mute ps
  | .union ts b => .union (muteSchemas ts) b
  | .annotated k ps => .annotated k ps
  | .logical lt ps => .logical lt ps
  | .ref n ns ps _ => .ref n ns ps none
/-- Fields without positions and documentation. -/
def muteFields : List Field → List Field
  | [] => []
  | .mk n s _ df o al ps :: fs => .mk n s.mute none df o al ps :: muteFields fs
/-- Schemas without positions and documentation. -/
def muteSchemas : List Schema → List Schema
  | [] => []
  | s :: ss => s.mute :: muteSchemas ss
end

/-- A field without positions and documentation. -/
def Field.mute : Field → Field
  | .mk n s _ df o al ps => .mk n s.mute none df o al ps

theorem muteFields_map (fs : List Field) : muteFields fs = fs.map Field.mute := by
  induction fs with
  | nil => rfl
  | cons f fs ih => cases f; rw [muteFields, ih]; rfl

theorem muteSchemas_map (ss : List Schema) : muteSchemas ss = ss.map Schema.mute := by
  induction ss with
  | nil => rfl
  | cons s ss ih => rw [muteSchemas, ih]; rfl

/-- A message without positions and documentation. -/
def Message.mute (m : Message) : Message :=
  { m with doc := none, request := m.request.map Field.mute, response := m.response.mute,
           errors := m.errors.map (List.map Schema.mute) }

/-- A name and a message without positions and documentation. -/
def muteMessage (nm : String × Message) : String × Message := (nm.1, nm.2.mute)

/-- A protocol without positions and documentation. -/
def Protocol.mute (p : Protocol) : Protocol :=
  { p with doc := none, types := p.types.map Schema.mute, messages := p.messages.map muteMessage }

/-- An import without positions and documentation. -/
def ImportEntry.mute (i : ImportEntry) : ImportEntry := { i with span := none }

/-- A declaration without positions and documentation. -/
def DeclItem.mute : DeclItem → DeclItem
  | .import_ i => .import_ i.mute
  | .type s _ _ => .type s.mute none []

/-- An error without its source position. -/
def Fault.mute (e : Fault) : Fault := ⟨e.err, none⟩

/-- A warning without its source position. -/
def WalkWarning.mute : WalkWarning → WalkWarning
  | .nonStandardAlias a _ => .nonStandardAlias a none
  | .annotationsDropped ks _ => .annotationsDropped ks none

/-- The state of the walk without positions and documentation. -/
def Log.mute (l : Log) : Log := ⟨[], l.warnings.map WalkWarning.mute⟩

/-- A file without positions and documentation. -/
def IdlFile.mute : IdlFile → IdlFile
  | .protocol p => .protocol p.mute
  | .schema s => .schema s.mute
  | .named ss => .named (ss.map Schema.mute)

namespace MuteReader

@[simp] theorem fullName_mute (s : Schema) : s.mute.fullName? = s.fullName? := by
  cases s <;> rw [Schema.mute] <;> rfl

@[simp] theorem name_mute (s : Schema) : s.mute.name? = s.name? := by
  cases s <;> rw [Schema.mute] <;> rfl

@[simp] theorem unionKey_mute (s : Schema) : s.mute.unionKey = s.unionKey := by
  cases s <;> rw [Schema.mute] <;> rfl

@[simp] theorem isNull_mute (s : Schema) : s.mute.isNull = s.isNull := by
  cases s <;> rw [Schema.mute] <;> rfl

@[simp] theorem isUnion_mute (s : Schema) : s.mute.isUnion = s.isUnion := by
  cases s <;> rw [Schema.mute] <;> rfl

@[simp] theorem fieldName_mute (f : Field) : f.mute.name = f.name := by cases f; rfl
@[simp] theorem fieldSchema_mute (f : Field) : f.mute.schema = f.schema.mute := by cases f; rfl
@[simp] theorem fieldDefault_mute (f : Field) : f.mute.default = f.default := by cases f; rfl

theorem withMergedProps_mute (s : Schema) (ps : Props) :
    s.mute.withMergedProps ps = (s.withMergedProps ps).mute := by
  cases s <;> simp [Schema.mute, Schema.withMergedProps]

theorem tryPromote_mute (s : Schema) : tryPromote s.mute = (tryPromote s).mute := by
  cases s with
  | annotated k ps =>
    rw [Schema.mute, tryPromote]
    split
    · split
      · rfl
      · split <;> rfl
    · rfl
  | _ => simp [Schema.mute, tryPromote]

theorem applyToSchema_mute (s : Schema) (ps : Props) :
    applyToSchema s.mute ps = (applyToSchema s ps).mute := by
  rw [applyToSchema, applyToSchema, withMergedProps_mute, tryPromote_mute]

theorem applyProps_mute (s : Schema) (ps : Props) :
    applyProps s.mute ps = (applyProps s ps).mute := by
  cases s with
  | union ts b =>
    rcases ts with _ | ⟨a, _ | ⟨c, _ | ⟨d, ts⟩⟩⟩ <;> cases b
    case cons.cons.nil.true =>
      show (if a.mute.isNull then _ else _) = (if a.isNull then _ else _ : Schema).mute
      rw [isNull_mute, applyToSchema_mute, applyToSchema_mute]
      split <;> rfl
    all_goals
      simp only [Schema.mute, muteSchemas, applyProps]
      rw [← applyToSchema_mute]
      simp only [Schema.mute, muteSchemas]
  | _ =>
    simp only [Schema.mute, applyProps]
    first
      | exact applyToSchema_mute (.prim _) _
      | exact applyToSchema_mute (.record ..) _
      | exact applyToSchema_mute (.enum ..) _
      | exact applyToSchema_mute (.fixed ..) _
      | exact applyToSchema_mute (.array ..) _
      | exact applyToSchema_mute (.map ..) _
      | exact applyToSchema_mute (.annotated ..) _
      | exact applyToSchema_mute (.logical ..) _
      | exact applyToSchema_mute (.ref ..) _

theorem isTypeReference_mute (s : Schema) : isTypeReference s.mute = isTypeReference s := by
  cases s with
  | union ts b =>
    cases b with
    | false => rfl
    | true =>
      show List.any (muteSchemas ts) _ = List.any ts _
      rw [muteSchemas_map, List.any_map]
      congr 1
      funext t
      cases t <;> rfl
  | _ => rfl

theorem isNonNullableUnion_mute (s : Schema) : isNonNullableUnion s.mute = isNonNullableUnion s := by
  cases s with
  | union ts b =>
    show (!(b && (muteSchemas ts).length == 2)) = (!(b && ts.length == 2))
    rw [muteSchemas_map, List.length_map]
  | _ => rfl

theorem fixOptional_mute (s : Schema) (d : Option Json) :
    fixOptional s.mute d = (fixOptional s d).mute := by
  cases s with
  | union ts b =>
    rcases ts with _ | ⟨a, _ | ⟨c, _ | ⟨e, ts⟩⟩⟩ <;> cases b <;> try rfl
    cases d with
    | none => rfl
    | some j => cases j <;> rfl
  | _ => rfl

theorem refTo_mute (ident : String) (span : Option Span) (ns : Option String) :
    refTo ident none ns = (refTo ident span ns).mute := by
  unfold refTo
  split <;> rfl

/-- A result or an error without positions and documentation. -/
def muteExcept {α β : Type} (f : α → β) : Except Fault α → Except Fault β
  | .error e => .error e.mute
  | .ok a => .ok (f a)

theorem wrapOptional_mute (b : Bool) (span : Option Span) (s : Schema) :
    wrapOptional b none s.mute = muteExcept Schema.mute (wrapOptional b span s) := by
  cases b with
  | false => rfl
  | true =>
    cases s with
    | prim p => cases p <;> rfl
    | _ => rfl

theorem headSpan_none {α : Type} (l : List α) : headSpan (l.map fun _ => none) = none := by
  cases l <;> rfl

theorem firstUnion_mute {α : Type} (ss : List Schema) : ∀ (spans : List (Option Span)) (l : List α),
    firstUnion (ss.map Schema.mute) (l.map fun _ => none) =
      (firstUnion ss spans).map fun _ => none := by
  induction ss with
  | nil => intro spans l; rfl
  | cons s ss ih =>
    intro spans l
    rw [List.map_cons, firstUnion, firstUnion, isUnion_mute, headSpan_none, ← List.map_tail]
    split
    · rfl
    · exact ih _ _

theorem firstDuplicate_mute {α : Type} (ks : List String) :
    ∀ (seen : List String) (spans : List (Option Span)) (l : List α),
      firstDuplicate seen ks (l.map fun _ => none) =
        (firstDuplicate seen ks spans).map muteName := by
  induction ks with
  | nil => intro seen spans l; rfl
  | cons k ks ih =>
    intro seen spans l
    rw [firstDuplicate, firstDuplicate, headSpan_none, ← List.map_tail]
    split
    · rfl
    · exact ih _ _ _

theorem checkUnion_mute {α : Type} (ss : List Schema) (spans : List (Option Span)) (l : List α) :
    checkUnion (ss.map Schema.mute) (l.map fun _ => none) =
      muteExcept Schema.mute (checkUnion ss spans) := by
  unfold checkUnion
  rw [List.map_map, firstUnion_mute ss spans]
  have h2 : (Schema.unionKey ∘ Schema.mute) = Schema.unionKey := funext unionKey_mute
  rw [h2, firstDuplicate_mute _ [] spans]
  cases firstUnion ss spans with
  | some _ => rfl
  | none =>
    cases firstDuplicate [] (ss.map Schema.unionKey) spans with
    | some _ => rfl
    | none =>
      show Except.ok (Schema.union _ _) = .ok (Schema.mute _)
      rw [Schema.mute, muteSchemas_map]

/-! ## Defaults -/

mutual
theorem isValidDefault_mute (v : Json) : (s : Schema) → isValidDefault v s.mute = isValidDefault v s
  | .prim _ | .enum .. | .fixed .. | .annotated .. | .logical .. | .ref .. => rfl
  | .record _ _ _ fs _ _ _ => by
      cases v with
      | obj o => exact validFields_mute o fs
      | _ => rfl
  | .array i _ => by
      cases v with
      | arr l =>
        show l.all _ = l.all _
        congr 1
        funext e
        exact isValidDefault_mute e i
      | _ => rfl
  | .map i _ => by
      cases v with
      | obj o =>
        show List.all o _ = List.all o _
        congr 1
        funext e
        exact isValidDefault_mute e.2 i
      | _ => rfl
  | .union ts _ => validAny_mute v ts
theorem validFields_mute (o : JMap) : (fs : List Field) →
    validFields o (muteFields fs) = validFields o fs
  | [] => rfl
  | .mk n s _ df _ _ _ :: fs => by
      rw [muteFields, validFields, validFields, validFields_mute o fs]
      congr 1
      cases o.get? n with
      | none => rfl
      | some fv => exact isValidDefault_mute fv s
theorem validAny_mute (v : Json) : (ss : List Schema) →
    validAny v (muteSchemas ss) = validAny v ss
  | [] => rfl
  | s :: ss => by
      rw [muteSchemas, validAny, validAny, isValidDefault_mute v s, validAny_mute v ss]
end

theorem missingRequired_mute (o : JMap) (fs : List Field) :
    missingRequired o (muteFields fs) = missingRequired o fs := by
  induction fs with
  | nil => rfl
  | cons f fs ih =>
    cases f with
    | mk n s d df ord al ps =>
      unfold missingRequired at ih ⊢
      rw [muteFields, List.filter_cons, List.filter_cons]
      have e : ∀ s' d', ((Field.mk n s' d' df ord al ps).default.isNone &&
          (o.get? (Field.mk n s' d' df ord al ps).name).isNone) =
          (df.isNone && (o.get? n).isNone) := fun _ _ => rfl
      rw [e, e]
      split
      · rw [List.map_cons, List.map_cons, ih]; rfl
      · exact ih

mutual
theorem validateDefault_mute (v : Json) : (s : Schema) →
    validateDefault v s.mute = validateDefault v s
  | .prim _ | .enum .. | .fixed .. | .annotated .. | .logical .. | .ref .. => rfl
  | .record n ns d fs e al ps => by
      have h := isValidDefault_mute v (.record n ns d fs e al ps)
      rw [Schema.mute] at h ⊢
      unfold validateDefault
      rw [h]
      split
      · rfl
      · cases v <;> try rfl
        dsimp only
        rw [missingRequired_mute, firstInvalidField_mute _ fs]
  | .array i ps => by
      have h := isValidDefault_mute v (.array i ps)
      rw [Schema.mute] at h ⊢
      rw [validateDefault, validateDefault, h]
  | .map i ps => by
      have h := isValidDefault_mute v (.map i ps)
      rw [Schema.mute] at h ⊢
      rw [validateDefault, validateDefault, h]
  | .union ts b => by
      have h := isValidDefault_mute v (.union ts b)
      rw [Schema.mute] at h ⊢
      rw [validateDefault, validateDefault, h]
theorem firstInvalidField_mute (o : JMap) : (fs : List Field) →
    firstInvalidField o (muteFields fs) = firstInvalidField o fs
  | [] => rfl
  | .mk n s _ _ _ _ _ :: fs => by
      rw [muteFields, firstInvalidField, firstInvalidField, firstInvalidField_mute o fs]
      cases o.get? n with
      | none => rfl
      | some fv =>
        dsimp only
        rw [validateDefault_mute fv s]
end

/-! ## The walk -/

/-- The outcome of a step without positions and documentation. -/
def muteOut {α β : Type} (f : α → β) : Except Fault (α × Log) → Except Fault (β × Log)
  | .error e => .error e.mute
  | .ok r => .ok (f r.1, r.2.mute)

/-- The second step does without positions and documentation what the first does with them. -/
def Blurs {α β : Type} (f : α → β) (m : W α) (m' : W β) : Prop := ∀ l, m' l.mute = muteOut f (m l)

theorem Blurs.pure {α β : Type} {f : α → β} {a : α} {b : β} (h : b = f a) :
    Blurs f (W.pure a) (W.pure b) := by
  intro l
  rw [h]
  rfl

theorem Blurs.bind {α β γ δ : Type} {f : α → β} {g : γ → δ} {m : W α} {m' : W β}
    {k : α → W γ} {k' : β → W δ} (hm : Blurs f m m') (hk : ∀ a, Blurs g (k a) (k' (f a))) :
    Blurs g (W.bind m k) (W.bind m' k') := by
  intro l
  unfold W.bind
  rw [hm l]
  cases m l with
  | error e => rfl
  | ok r => exact hk r.1 r.2

theorem Blurs.fail {α β : Type} {f : α → β} (e : ReadErr) (s : Option Span) :
    Blurs f (W.fail e s) (W.fail e none) := fun _ => rfl

theorem Blurs.lift {α β : Type} {f : α → β} {r : Except Fault α} {r' : Except Fault β}
    (h : r' = muteExcept f r) : Blurs f (W.lift r) (W.lift r') := by
  intro l
  rw [h]
  cases r <;> rfl

theorem Blurs.failIf {b b' : Bool} (h : b' = b) (e : ReadErr) (s : Option Span) :
    Blurs id (W.failIf b e s) (W.failIf b' e none) := by
  intro l
  rw [h]
  cases b <;> rfl

theorem Blurs.ite {α β : Type} {f : α → β} {c : Prop} [Decidable c] {m n : W α} {m' n' : W β}
    (hm : Blurs f m m') (hn : Blurs f n n') :
    Blurs f (if c then m else n) (if c then m' else n') := by
  split
  · exact hm
  · exact hn

theorem Blurs.warn {w w' : WalkWarning} (h : w' = w.mute) : Blurs id (W.warn w) (W.warn w') := by
  intro l
  rw [h]
  show Except.ok _ = Except.ok _
  simp [Log.mute]

theorem walkDoc_mute (tokens : List Token) (start : Nat) :
    Blurs (fun _ => none) (walkDoc tokens start) (walkDoc [] 0) := by
  intro l
  have e : walkDoc [] 0 l.mute = .ok (none, l.mute) := rfl
  rw [e]
  unfold walkDoc
  rcases extractDocComment tokens start with ⟨_ | i, doc⟩ <;> rfl

section
variable [CharTables] [FloatTables] [CaseTables]

omit [CharTables] [CaseTables] in
mutual
theorem walkJson_mute : (v : JVal) → walkJson v.mute = muteExcept id (walkJson v)
  | .null | .true | .false | .str _ => by rw [JVal.mute]; rfl
  | .int text _ => by
      rw [JVal.mute, walkJson, walkJson]
      cases parseIntegerLiteral text <;> rfl
  | .float text _ => by
      rw [JVal.mute, walkJson, walkJson]
      cases parseFloatingPointLiteral text <;> rfl
  | .arr l => by
      rw [JVal.mute, walkJson, walkJson, walkJsonList_mute l]
      cases walkJsonList l <;> rfl
  | .obj m => by
      rw [JVal.mute, walkJson, walkJson, walkJsonPairs_mute [] m]
      cases walkJsonPairs [] m <;> rfl
theorem walkJsonList_mute : (vs : List JVal) →
    walkJsonList (muteVals vs) = muteExcept id (walkJsonList vs)
  | [] => rfl
  | v :: vs => by
      rw [muteVals, walkJsonList, walkJsonList, walkJson_mute v, walkJsonList_mute vs]
      cases walkJson v with
      | error e => rfl
      | ok j => cases walkJsonList vs <;> rfl
theorem walkJsonPairs_mute (acc : JMap) : (ps : List (String × JVal)) →
    walkJsonPairs acc (mutePairs ps) = muteExcept id (walkJsonPairs acc ps)
  | [] => rfl
  | (k, v) :: ps => by
      rw [mutePairs, walkJsonPairs, walkJsonPairs, walkJson_mute v]
      cases walkJson v with
      | error e => rfl
      | ok j => exact walkJsonPairs_mute _ ps
end

omit [FloatTables] [CaseTables] in
theorem walkAliases_mute (span : Option Span) (js : List Json) :
    Blurs id (walkAliases span js) (walkAliases none js) := by
  induction js with
  | nil => exact .pure rfl
  | cons j js ih =>
    cases j with
    | str s =>
      rw [walkAliases, walkAliases]
      exact .bind (.ite (.pure rfl) (.warn rfl)) fun _ => .bind ih fun _ => .pure rfl
    | _ => exact .fail _ _

omit [FloatTables] in
theorem annotStep_mute (ctx : PropCtx) (acc : SchemaProps) (name : String) (v : Json)
    (span : Option Span) :
    Blurs id (annotStep ctx acc name v span) (annotStep ctx acc name v none) := by
  unfold annotStep
  refine .ite ?_ (.ite ?_ (.ite ?_ (.ite (.fail _ _) (.pure rfl))))
  · cases v <;> first | exact .pure rfl | exact .fail _ _
  · cases v <;> first
      | exact .bind (walkAliases_mute _ _) fun _ => .pure rfl
      | exact .fail _ _
  · cases parseOrderAnnot v <;> first | exact .pure rfl | exact .fail _ _

theorem walkAnnots_mute (ctx : PropCtx) (as : List Annot) : ∀ acc,
    Blurs id (walkAnnots ctx acc as) (walkAnnots ctx acc (as.map Annot.mute)) := by
  induction as with
  | nil => intro acc; exact .pure rfl
  | cons a as ih =>
    intro acc
    rw [List.map_cons, walkAnnots, walkAnnots]
    exact .bind (.lift (walkJson_mute a.value)) fun v => .bind (annotStep_mute _ _ _ _ _) fun _ =>
      ih _

omit [CharTables] [FloatTables] [CaseTables] in
theorem finishFullType_mute (ps : Props) (span : Option Span) (s : Schema) :
    Blurs Schema.mute (finishFullType ps span s) (finishFullType ps none s.mute) := by
  unfold finishFullType
  rw [isTypeReference_mute, isNonNullableUnion_mute, applyProps_mute]
  exact .ite (.pure rfl) (.ite (.fail _ _)
    (.bind (f := id) (.ite (.warn rfl) (.pure rfl)) fun _ => .pure rfl))

omit [CharTables] [FloatTables] [CaseTables] in
theorem walkPrim_mute (p : PrimTok) : walkPrim p.mute = muteExcept Schema.mute (walkPrim p) := by
  cases p with
  | decimal p sp s =>
    unfold walkPrim PrimTok.mute
    cases s with
    | none =>
      dsimp only [Option.map_none]
      repeat' first | rfl | split
    | some s =>
      dsimp only [Option.map_some, muteName]
      repeat' first | rfl | split
  | _ => rfl

omit [CharTables] [FloatTables] [CaseTables] in
theorem spans_map_mute (ts : List FullType) :
    (muteFullTypes ts).map FullType.span = ts.map fun _ => none := by
  rw [muteFullTypes_map, List.map_map]
  congr 1
  funext t
  cases t
  rfl

mutual
theorem walkFullType_mute (ns : Option String) : (t : FullType) →
    Blurs Schema.mute (walkFullType ns t) (walkFullType ns t.mute)
  | .mk as t sp => by
      rw [FullType.mute, walkFullType, walkFullType]
      exact .bind (walkAnnots_mute _ as _) fun p => .bind (walkPlainType_mute ns t) fun s =>
        finishFullType_mute _ _ s
theorem walkPlainType_mute (ns : Option String) : (t : PlainType) →
    Blurs Schema.mute (walkPlainType ns t) (walkPlainType ns t.mute)
  | .array t => by
      rw [PlainType.mute, walkPlainType, walkPlainType]
      exact .bind (walkFullType_mute ns t) fun s => .pure rfl
  | .map t => by
      rw [PlainType.mute, walkPlainType, walkPlainType]
      exact .bind (walkFullType_mute ns t) fun s => .pure rfl
  | .union ts => by
      rw [PlainType.mute, walkPlainType, walkPlainType, spans_map_mute]
      exact .bind (walkFullTypes_mute ns ts) fun ss => .lift (checkUnion_mute ss _ _)
  | .prim p b sp => by
      rw [PlainType.mute, walkPlainType, walkPlainType]
      exact .bind (.lift (walkPrim_mute p)) fun s => .lift (wrapOptional_mute b _ s)
  | .named i span b => by
      rw [PlainType.mute, walkPlainType, walkPlainType, refTo_mute (span := span)]
      exact .lift (wrapOptional_mute b _ _)
theorem walkFullTypes_mute (ns : Option String) : (ts : List FullType) →
    Blurs (List.map Schema.mute) (walkFullTypes ns ts) (walkFullTypes ns (muteFullTypes ts))
  | [] => .pure rfl
  | t :: ts => by
      rw [muteFullTypes, walkFullTypes, walkFullTypes]
      exact .bind (walkFullType_mute ns t) fun s => .bind (walkFullTypes_mute ns ts) fun ss =>
        .pure rfl
end

omit [CharTables] [FloatTables] [CaseTables] in
theorem checkDefault_mute (f : String) (span : Option Span) (d : Option Json) (s : Schema) :
    Blurs id (checkDefault f span d s) (checkDefault f none d s.mute) := by
  unfold checkDefault
  cases d with
  | none => exact .pure rfl
  | some v =>
    dsimp only
    rw [validateDefault_mute]
    cases validateDefault v s with
    | none => exact .pure rfl
    | some r => exact .fail _ _

omit [CharTables] [CaseTables] in
theorem walkDefault_mute (d : Option JVal) :
    walkDefault (d.map JVal.mute) = muteExcept id (walkDefault d) := by
  cases d with
  | none => rfl
  | some v =>
    rw [Option.map_some, walkDefault, walkDefault, walkJson_mute]
    cases walkJson v <;> rfl

theorem walkVariable_mute (tokens : List Token) (type : Schema) (dd : Option String) (v : VarDecl) :
    Blurs Field.mute (walkVariable tokens type dd v) (walkVariable [] type.mute none v.mute) := by
  unfold walkVariable VarDecl.mute
  refine .bind (walkDoc_mute _ _) fun _ => .bind (walkAnnots_mute _ _ _) fun p =>
    .bind (.lift (walkDefault_mute v.default)) fun d => ?_
  dsimp only [id_eq]
  rw [fixOptional_mute]
  exact .bind (checkDefault_mute _ _ _ _) fun _ => .pure rfl

theorem walkVariables_mute (tokens : List Token) (type : Schema) (dd : Option String)
    (vs : List VarDecl) : Blurs (List.map Field.mute) (walkVariables tokens type dd vs)
      (walkVariables [] type.mute none (vs.map VarDecl.mute)) := by
  induction vs with
  | nil => exact .pure rfl
  | cons v vs ih =>
    rw [List.map_cons, walkVariables, walkVariables]
    exact .bind (walkVariable_mute _ _ _ _) fun f => .bind ih fun fs => .pure rfl

theorem walkField_mute (tokens : List Token) (ns : Option String) (d : FieldDecl) :
    Blurs (List.map Field.mute) (walkField tokens ns d) (walkField [] ns d.mute) :=
  .bind (walkDoc_mute _ _) fun _ => .bind (walkFullType_mute _ _) fun _ => walkVariables_mute _ _ _ _

omit [CharTables] [FloatTables] [CaseTables] in
theorem checkFieldNames_mute {α : Type} (r : String) (fs : List Field) :
    ∀ (seen : List String) (spans : List (Option Span)) (l : List α),
      Blurs id (checkFieldNames r seen fs spans)
        (checkFieldNames r seen (fs.map Field.mute) (l.map fun _ => none)) := by
  induction fs with
  | nil => intro seen spans l; exact .pure rfl
  | cons f fs ih =>
    intro seen spans l
    rw [List.map_cons, checkFieldNames, checkFieldNames, fieldName_mute, headSpan_none,
      ← List.map_tail]
    exact .ite (.fail _ _) (ih _ _ _)

theorem walkFields_mute (tokens : List Token) (ns : Option String) (r : String)
    (ds : List FieldDecl) : ∀ seen, Blurs (List.map Field.mute) (walkFields tokens ns r seen ds)
      (walkFields [] ns r seen (ds.map FieldDecl.mute)) := by
  induction ds with
  | nil => intro seen; exact .pure rfl
  | cons d ds ih =>
    intro seen
    rw [List.map_cons, walkFields, walkFields]
    have e : d.mute.vars.map VarDecl.identSpan = d.vars.map fun _ => none := by
      rw [FieldDecl.mute, List.map_map]
      rfl
    rw [e]
    exact .bind (walkField_mute _ _ _) fun fs => .bind (checkFieldNames_mute _ _ _ _ _) fun _ =>
      .bind (ih _) fun rest => .pure (by rw [List.map_append])

/-- A schema and a namespace without positions and documentation. -/
def muteFst (r : Schema × Option String) : Schema × Option String := (r.1.mute, r.2)

theorem walkRecord_mute (tokens : List Token) (ns : Option String) (d : RecordDecl) :
    Blurs muteFst (walkRecord tokens ns d) (walkRecord [] ns d.mute) :=
  .bind (walkDoc_mute _ _) fun _ => .bind (walkAnnots_mute _ _ _) fun _ =>
    .bind (.failIf rfl _ _) fun _ => .bind (walkFields_mute _ _ _ _ _) fun fs =>
      .pure (by rw [muteFst, Schema.mute, muteFields_map]; rfl)

omit [CharTables] [FloatTables] [CaseTables] in
theorem checkSymbols_mute (ss : List (String × Option Span)) : ∀ seen,
    Blurs id (checkSymbols seen ss) (checkSymbols seen (ss.map muteName)) := by
  induction ss with
  | nil => intro seen; exact .pure rfl
  | cons s ss ih =>
    intro seen
    rw [List.map_cons, checkSymbols, checkSymbols]
    exact .ite (.fail _ _) (ih _)

omit [CharTables] [FloatTables] [CaseTables] in
theorem checkEnumDefault_mute (symbols : List String) (d : Option (String × Option Span)) :
    Blurs id (checkEnumDefault symbols d) (checkEnumDefault symbols (d.map muteName)) := by
  cases d with
  | none => exact .pure rfl
  | some s => exact .ite (.pure rfl) (.fail _ _)

theorem walkEnum_mute (tokens : List Token) (ns : Option String) (d : EnumDecl) :
    Blurs Schema.mute (walkEnum tokens ns d) (walkEnum [] ns d.mute) :=
  .bind (walkDoc_mute _ _) fun _ => .bind (walkAnnots_mute _ _ _) fun _ =>
    .bind (.failIf rfl _ _) fun _ => .bind (checkSymbols_mute _ _) fun _ =>
      .bind (checkEnumDefault_mute _ _) fun _ => .pure rfl

theorem walkFixed_mute (tokens : List Token) (ns : Option String) (d : FixedDecl) :
    Blurs Schema.mute (walkFixed tokens ns d) (walkFixed [] ns d.mute) := by
  refine .bind (walkDoc_mute _ _) fun _ => .bind (walkAnnots_mute _ _ _) fun _ =>
    .bind (.failIf rfl _ _) fun _ => ?_
  show Blurs _ (match parseIntegerAsU32 d.size with | none => _ | some _ => _)
    (match parseIntegerAsU32 d.size with | none => _ | some _ => _)
  cases parseIntegerAsU32 d.size with
  | none => exact .fail _ _
  | some n => exact .pure (by rw [← tryPromote_mute]; rfl)

theorem walkNamed_mute (tokens : List Token) (ns : Option String) (d : NamedDecl) :
    Blurs muteFst (walkNamed tokens ns d) (walkNamed [] ns d.mute) := by
  cases d with
  | record d => exact walkRecord_mute tokens ns d
  | enum d => exact .bind (walkEnum_mute tokens ns d) fun _ => .pure rfl
  | fixed d => exact .bind (walkFixed_mute tokens ns d) fun _ => .pure rfl

omit [CharTables] [FloatTables] [CaseTables] in
theorem spans_mute (d : NamedDecl) : d.mute.spans = [] := by
  cases d with
  | record d =>
    rw [NamedDecl.mute, NamedDecl.spans, fieldSpans, List.filterMap_eq_nil_iff]
    intro v hv
    obtain ⟨f, hf, hv⟩ := List.mem_flatMap.mp hv
    obtain ⟨f0, _, rfl⟩ := List.mem_map.mp hf
    obtain ⟨v0, _, rfl⟩ := List.mem_map.mp hv
    rfl
  | enum d => rfl
  | fixed d => rfl

theorem walkParams_mute (tokens : List Token) (ns : Option String) (m : String) (ps : List Param) :
    ∀ seen, Blurs (List.map Field.mute) (walkParams tokens ns m seen ps)
      (walkParams [] ns m seen (ps.map Param.mute)) := by
  induction ps with
  | nil => intro seen; exact .pure rfl
  | cons p ps ih =>
    intro seen
    rw [List.map_cons, walkParams, walkParams]
    refine .bind (walkDoc_mute _ _) fun _ => .bind (walkFullType_mute _ _) fun _ =>
      .bind (walkVariable_mute _ _ _ _) fun f => ?_
    rw [fieldName_mute]
    exact .ite (.fail _ _) (.bind (ih _) fun _ => .pure rfl)

theorem walkResult_mute (ns : Option String) (t : Option PlainType) :
    Blurs Schema.mute (walkResult ns t) (walkResult ns (t.map PlainType.mute)) := by
  cases t with
  | none => exact .pure rfl
  | some t => exact walkPlainType_mute ns t

omit [CharTables] [FloatTables] [CaseTables] in
theorem messageErrors_mute (ns : Option String) (es : List (String × Option Span)) :
    messageErrors ns (es.map muteName) = (messageErrors ns es).map (List.map Schema.mute) := by
  cases es with
  | nil => rfl
  | cons e es =>
    show some (List.map _ (List.map _ (e :: es))) = some (List.map _ (List.map _ (e :: es)))
    rw [List.map_map, List.map_map]
    congr 2
    funext x
    exact refTo_mute _ _ _

theorem walkMessage_mute (tokens : List Token) (ns : Option String) (d : MessageDecl) :
    Blurs muteMessage (walkMessage tokens ns d) (walkMessage [] ns d.mute) :=
  .bind (walkDoc_mute _ _) fun _ => .bind (walkAnnots_mute _ _ _) fun p =>
    .bind (walkResult_mute _ _) fun response =>
      .bind (.failIf (by rw [isTypeReference_mute]; rfl) _ _) fun _ =>
        .bind (walkParams_mute _ _ _ _ _) fun request =>
          .bind (.failIf (by rw [isNull_mute]; rfl) _ _) fun _ => .pure (by
            show (_, { errors := messageErrors ns (d.errors.map muteName), .. : Message }) = _
            rw [messageErrors_mute]
            rfl)

omit [CharTables] [FloatTables] [CaseTables] in
theorem insertMessage_mute (ms : List (String × Message)) (n : String) (m : Message) :
    insertMessage (ms.map muteMessage) n m.mute = (insertMessage ms n m).map muteMessage := by
  unfold insertMessage
  rw [List.map_append, List.filter_map]
  rfl

/-- What the body loop of a protocol gives, without positions and documentation. -/
def muteBody (r : List (String × Message) × List DeclItem × Option String) :
    List (String × Message) × List DeclItem × Option String :=
  (r.1.map muteMessage, r.2.1.map DeclItem.mute, r.2.2)

theorem walkBody_mute (tokens : List Token) (items : List BodyItem) :
    ∀ (ns : Option String) (ms : List (String × Message)), Blurs muteBody
      (walkBody tokens ns ms items)
      (walkBody [] ns (ms.map muteMessage) (items.map BodyItem.mute)) := by
  induction items with
  | nil => intro ns ms; exact .pure rfl
  | cons i items ih =>
    intro ns ms
    cases i with
    | import_ i =>
      rw [List.map_cons, BodyItem.mute, walkBody, walkBody]
      exact .bind (ih _ _) fun _ => .pure rfl
    | named d span =>
      rw [List.map_cons, BodyItem.mute, walkBody, walkBody, spans_mute]
      exact .bind (walkNamed_mute _ _ _) fun s => .bind (ih _ _) fun _ => .pure rfl
    | message m =>
      rw [List.map_cons, BodyItem.mute, walkBody, walkBody]
      refine .bind (walkMessage_mute _ _ _) fun nm => ?_
      rw [muteMessage, insertMessage_mute]
      exact ih _ _

/-- Declarations and their schemas without positions and documentation. -/
def muteItems (r : List Schema × List DeclItem × Option String) :
    List Schema × List DeclItem × Option String :=
  (r.1.map Schema.mute, r.2.1.map DeclItem.mute, r.2.2)

theorem walkItems_mute (tokens : List Token) (items : List FileItem) : ∀ ns : Option String,
    Blurs muteItems (walkItems tokens ns items) (walkItems [] ns (items.map FileItem.mute)) := by
  induction items with
  | nil => intro ns; exact .pure rfl
  | cons i items ih =>
    intro ns
    cases i with
    | import_ i =>
      rw [List.map_cons, FileItem.mute, walkItems, walkItems]
      exact .bind (ih _) fun _ => .pure rfl
    | named d span =>
      rw [List.map_cons, FileItem.mute, walkItems, walkItems, spans_mute]
      exact .bind (walkNamed_mute _ _ _) fun s => .bind (ih _) fun _ => .pure rfl

/-- A protocol and its declarations without positions and documentation. -/
def muteProtocol (r : Protocol × List DeclItem) : Protocol × List DeclItem :=
  (r.1.mute, r.2.map DeclItem.mute)

/-- A file and its declarations without positions and documentation. -/
def muteFile (r : IdlFile × List DeclItem) : IdlFile × List DeclItem :=
  (r.1.mute, r.2.map DeclItem.mute)

theorem walkProtocol_mute (tokens : List Token) (d : ProtocolDecl) :
    Blurs muteProtocol (walkProtocol tokens d) (walkProtocol [] d.mute) :=
  .bind (walkDoc_mute _ _) fun _ => .bind (walkAnnots_mute _ _ _) fun _ =>
    .bind (.failIf rfl _ _) fun _ => .bind (walkBody_mute _ _ _ []) fun _ => .pure rfl

theorem walkFile_mute (tokens : List Token) (ast : FileAst) :
    Blurs muteFile (walkFile tokens ast) (walkFile [] ast.mute) := by
  cases ast with
  | protocol d =>
    rw [FileAst.mute, walkFile, walkFile]
    exact .bind (walkProtocol_mute _ _) fun _ => .pure rfl
  | schema ns main body =>
    rw [FileAst.mute, walkFile, walkFile]
    refine .bind (walkItems_mute _ _ _) fun r => ?_
    cases main with
    | none => exact .pure rfl
    | some t => exact .bind (walkFullType_mute _ _) fun _ => .pure rfl

/-- The result of the reader without positions and documentation. -/
def muteResult (r : ReadResult) : ReadResult :=
  { r with orphans := [], file := r.file.mute, decls := r.decls.map DeclItem.mute,
           warnings := r.warnings.map WalkWarning.mute }

/-- The reader passes positions on and does not look at them. -/
theorem readFile_mute (tokens : List Token) (ast : FileAst) :
    readFile [] ast.mute = muteExcept muteResult (readFile tokens ast) := by
  unfold readFile
  have h := walkFile_mute tokens ast { consumed := [], warnings := [] }
  rw [show Log.mute { consumed := [], warnings := [] } = { consumed := [], warnings := [] } from rfl]
    at h
  rw [h]
  cases walkFile tokens ast { consumed := [], warnings := [] } <;> rfl

end

end MuteReader

end Avdl

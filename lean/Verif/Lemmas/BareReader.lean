import Verif.Lemmas.BareParse
/-!
# Source positions and backticks and the reader

Schemas without source positions: what the reader makes of a tree depends on positions only in the
positions it passes on, and not on backticks around identifiers.
-/

namespace Avdl

mutual
/-- A schema without source positions. -/
def Schema.bare : Schema → Schema
  | .prim p => .prim p
  | .record n ns d fs e al ps => .record n ns d (bareFields fs) e al ps
  | .enum n ns d sy df al ps => .enum n ns d sy df al ps
  | .fixed n ns d sz al ps => .fixed n ns d sz al ps
  | .array i ps => .array i.bare ps
  | .map i ps => .map i.bare ps
  | .union ts b => .union (bareSchemas ts) b
  | .annotated k ps => .annotated k ps
  | .logical lt ps => .logical lt ps
  | .ref n ns ps _ => .ref n ns ps none
/-- Fields without source positions. -/
def bareFields : List Field → List Field
  | [] => []
  | .mk n s d df o al ps :: fs => .mk n s.bare d df o al ps :: bareFields fs
/-- Schemas without source positions. -/
def bareSchemas : List Schema → List Schema
  | [] => []
  | s :: ss => s.bare :: bareSchemas ss
end

/-- A field without source positions. -/
def Field.bare (f : Field) : Field := f.withSchema f.schema.bare

theorem bareFields_map (fs : List Field) : bareFields fs = fs.map Field.bare := by
  induction fs with
  | nil => rfl
  | cons f fs ih => cases f; rw [bareFields, ih]; rfl

theorem bareSchemas_map (ss : List Schema) : bareSchemas ss = ss.map Schema.bare := by
  induction ss with
  | nil => rfl
  | cons s ss ih => rw [bareSchemas, ih]; rfl

/-- A message without source positions. -/
def Message.bare (m : Message) : Message :=
  { m with request := m.request.map Field.bare, response := m.response.bare,
           errors := m.errors.map (List.map Schema.bare) }

/-- A name and a message without source positions. -/
def bareMessage (nm : String × Message) : String × Message := (nm.1, nm.2.bare)

/-- A protocol without source positions. -/
def Protocol.bare (p : Protocol) : Protocol :=
  { p with types := p.types.map Schema.bare, messages := p.messages.map bareMessage }

/-- An import without source positions. -/
def ImportEntry.bare (i : ImportEntry) : ImportEntry := { i with span := none }

/-- A declaration without source positions. -/
def DeclItem.bare : DeclItem → DeclItem
  | .import_ i => .import_ i.bare
  | .type s _ _ => .type s.bare none []

/-- An error without its source position. -/
def Fault.bare (e : Fault) : Fault := ⟨e.err, none⟩

/-- A warning without its source position. -/
def WalkWarning.bare : WalkWarning → WalkWarning
  | .nonStandardAlias a _ => .nonStandardAlias a none
  | .annotationsDropped ks _ => .annotationsDropped ks none

/-- The state of the walk without source positions. -/
def Log.bare (l : Log) : Log := ⟨l.consumed, l.warnings.map WalkWarning.bare⟩

/-- A file without source positions. -/
def IdlFile.bare : IdlFile → IdlFile
  | .protocol p => .protocol p.bare
  | .schema s => .schema s.bare
  | .named ss => .named (ss.map Schema.bare)

namespace BareReader

@[simp] theorem fullName_bare (s : Schema) : s.bare.fullName? = s.fullName? := by
  cases s <;> rw [Schema.bare] <;> rfl

@[simp] theorem name_bare (s : Schema) : s.bare.name? = s.name? := by
  cases s <;> rw [Schema.bare] <;> rfl

@[simp] theorem unionKey_bare (s : Schema) : s.bare.unionKey = s.unionKey := by
  cases s <;> rw [Schema.bare] <;> rfl

@[simp] theorem isNull_bare (s : Schema) : s.bare.isNull = s.isNull := by
  cases s <;> rw [Schema.bare] <;> rfl

@[simp] theorem isUnion_bare (s : Schema) : s.bare.isUnion = s.isUnion := by
  cases s <;> rw [Schema.bare] <;> rfl

@[simp] theorem fieldName_bare (f : Field) : f.bare.name = f.name := by cases f; rfl
@[simp] theorem fieldSchema_bare (f : Field) : f.bare.schema = f.schema.bare := by cases f; rfl
@[simp] theorem fieldDefault_bare (f : Field) : f.bare.default = f.default := by cases f; rfl

theorem withMergedProps_bare (s : Schema) (ps : Props) :
    s.bare.withMergedProps ps = (s.withMergedProps ps).bare := by
  cases s <;> simp [Schema.bare, Schema.withMergedProps]

theorem tryPromote_bare (s : Schema) : tryPromote s.bare = (tryPromote s).bare := by
  cases s with
  | annotated k ps =>
    rw [Schema.bare, tryPromote]
    split
    · split
      · rfl
      · split <;> rfl
    · rfl
  | _ => simp [Schema.bare, tryPromote]

theorem applyToSchema_bare (s : Schema) (ps : Props) :
    applyToSchema s.bare ps = (applyToSchema s ps).bare := by
  rw [applyToSchema, applyToSchema, withMergedProps_bare, tryPromote_bare]

theorem applyProps_bare (s : Schema) (ps : Props) :
    applyProps s.bare ps = (applyProps s ps).bare := by
  cases s with
  | union ts b =>
    rcases ts with _ | ⟨a, _ | ⟨c, _ | ⟨d, ts⟩⟩⟩ <;> cases b
    case cons.cons.nil.true =>
      show (if a.bare.isNull then _ else _) = (if a.isNull then _ else _ : Schema).bare
      rw [isNull_bare, applyToSchema_bare, applyToSchema_bare]
      split <;> rfl
    all_goals
      simp only [Schema.bare, bareSchemas, applyProps]
      rw [← applyToSchema_bare]
      simp only [Schema.bare, bareSchemas]
  | _ =>
    simp only [Schema.bare, applyProps]
    first
      | exact applyToSchema_bare (.prim _) _
      | exact applyToSchema_bare (.record ..) _
      | exact applyToSchema_bare (.enum ..) _
      | exact applyToSchema_bare (.fixed ..) _
      | exact applyToSchema_bare (.array ..) _
      | exact applyToSchema_bare (.map ..) _
      | exact applyToSchema_bare (.annotated ..) _
      | exact applyToSchema_bare (.logical ..) _
      | exact applyToSchema_bare (.ref ..) _

theorem isTypeReference_bare (s : Schema) : isTypeReference s.bare = isTypeReference s := by
  cases s with
  | union ts b =>
    cases b with
    | false => rfl
    | true =>
      show List.any (bareSchemas ts) _ = List.any ts _
      rw [bareSchemas_map, List.any_map]
      congr 1
      funext t
      cases t <;> rfl
  | _ => rfl

theorem isNonNullableUnion_bare (s : Schema) : isNonNullableUnion s.bare = isNonNullableUnion s := by
  cases s with
  | union ts b =>
    show (!(b && (bareSchemas ts).length == 2)) = (!(b && ts.length == 2))
    rw [bareSchemas_map, List.length_map]
  | _ => rfl

theorem fixOptional_bare (s : Schema) (d : Option Json) :
    fixOptional s.bare d = (fixOptional s d).bare := by
  cases s with
  | union ts b =>
    rcases ts with _ | ⟨a, _ | ⟨c, _ | ⟨e, ts⟩⟩⟩ <;> cases b <;> try rfl
    cases d with
    | none => rfl
    | some j => cases j <;> rfl
  | _ => rfl

theorem refTo_bare (ident : String) (span : Option Span) (ns : Option String) :
    refTo ident none ns = (refTo ident span ns).bare := by
  unfold refTo
  split <;> rfl

/-- A result or an error without source positions. -/
def bareExcept {α β : Type} (f : α → β) : Except Fault α → Except Fault β
  | .error e => .error e.bare
  | .ok a => .ok (f a)

theorem wrapOptional_bare (b : Bool) (span : Option Span) (s : Schema) :
    wrapOptional b none s.bare = bareExcept Schema.bare (wrapOptional b span s) := by
  cases b with
  | false => rfl
  | true =>
    cases s with
    | prim p => cases p <;> rfl
    | _ => rfl

theorem headSpan_none {α : Type} (l : List α) : headSpan (l.map fun _ => none) = none := by
  cases l <;> rfl

theorem firstUnion_bare {α : Type} (ss : List Schema) : ∀ (spans : List (Option Span)) (l : List α),
    firstUnion (ss.map Schema.bare) (l.map fun _ => none) =
      (firstUnion ss spans).map fun _ => none := by
  induction ss with
  | nil => intro spans l; rfl
  | cons s ss ih =>
    intro spans l
    rw [List.map_cons, firstUnion, firstUnion, isUnion_bare, headSpan_none, ← List.map_tail]
    split
    · rfl
    · exact ih _ _

theorem firstDuplicate_bare {α : Type} (ks : List String) :
    ∀ (seen : List String) (spans : List (Option Span)) (l : List α),
      firstDuplicate seen ks (l.map fun _ => none) =
        (firstDuplicate seen ks spans).map bareName := by
  induction ks with
  | nil => intro seen spans l; rfl
  | cons k ks ih =>
    intro seen spans l
    rw [firstDuplicate, firstDuplicate, headSpan_none, ← List.map_tail]
    split
    · rfl
    · exact ih _ _ _

theorem checkUnion_bare {α : Type} (ss : List Schema) (spans : List (Option Span)) (l : List α) :
    checkUnion (ss.map Schema.bare) (l.map fun _ => none) =
      bareExcept Schema.bare (checkUnion ss spans) := by
  unfold checkUnion
  rw [List.map_map, firstUnion_bare ss spans]
  have h2 : (Schema.unionKey ∘ Schema.bare) = Schema.unionKey := funext unionKey_bare
  rw [h2, firstDuplicate_bare _ [] spans]
  cases firstUnion ss spans with
  | some _ => rfl
  | none =>
    cases firstDuplicate [] (ss.map Schema.unionKey) spans with
    | some _ => rfl
    | none =>
      show Except.ok (Schema.union _ _) = .ok (Schema.bare _)
      rw [Schema.bare, bareSchemas_map]

/-! ## Defaults -/

mutual
theorem isValidDefault_bare (v : Json) : (s : Schema) → isValidDefault v s.bare = isValidDefault v s
  | .prim _ | .enum .. | .fixed .. | .annotated .. | .logical .. | .ref .. => rfl
  | .record _ _ _ fs _ _ _ => by
      cases v with
      | obj o => exact validFields_bare o fs
      | _ => rfl
  | .array i _ => by
      cases v with
      | arr l =>
        show l.all _ = l.all _
        congr 1
        funext e
        exact isValidDefault_bare e i
      | _ => rfl
  | .map i _ => by
      cases v with
      | obj o =>
        show List.all o _ = List.all o _
        congr 1
        funext e
        exact isValidDefault_bare e.2 i
      | _ => rfl
  | .union ts _ => validAny_bare v ts
theorem validFields_bare (o : JMap) : (fs : List Field) →
    validFields o (bareFields fs) = validFields o fs
  | [] => rfl
  | .mk n s _ df _ _ _ :: fs => by
      rw [bareFields, validFields, validFields, validFields_bare o fs]
      congr 1
      cases o.get? n with
      | none => rfl
      | some fv => exact isValidDefault_bare fv s
theorem validAny_bare (v : Json) : (ss : List Schema) →
    validAny v (bareSchemas ss) = validAny v ss
  | [] => rfl
  | s :: ss => by
      rw [bareSchemas, validAny, validAny, isValidDefault_bare v s, validAny_bare v ss]
end

theorem missingRequired_bare (o : JMap) (fs : List Field) :
    missingRequired o (bareFields fs) = missingRequired o fs := by
  induction fs with
  | nil => rfl
  | cons f fs ih =>
    cases f with
    | mk n s d df ord al ps =>
      unfold missingRequired at ih ⊢
      rw [bareFields, List.filter_cons, List.filter_cons]
      have e : ∀ s', ((Field.mk n s' d df ord al ps).default.isNone &&
          (o.get? (Field.mk n s' d df ord al ps).name).isNone) =
          (df.isNone && (o.get? n).isNone) := fun _ => rfl
      rw [e, e]
      split
      · rw [List.map_cons, List.map_cons, ih]; rfl
      · exact ih

mutual
theorem validateDefault_bare (v : Json) : (s : Schema) →
    validateDefault v s.bare = validateDefault v s
  | .prim _ | .enum .. | .fixed .. | .annotated .. | .logical .. | .ref .. => rfl
  | .record n ns d fs e al ps => by
      have h := isValidDefault_bare v (.record n ns d fs e al ps)
      rw [Schema.bare] at h ⊢
      unfold validateDefault
      rw [h]
      split
      · rfl
      · cases v <;> try rfl
        dsimp only
        rw [missingRequired_bare, firstInvalidField_bare _ fs]
  | .array i ps => by
      have h := isValidDefault_bare v (.array i ps)
      rw [Schema.bare] at h ⊢
      rw [validateDefault, validateDefault, h]
  | .map i ps => by
      have h := isValidDefault_bare v (.map i ps)
      rw [Schema.bare] at h ⊢
      rw [validateDefault, validateDefault, h]
  | .union ts b => by
      have h := isValidDefault_bare v (.union ts b)
      rw [Schema.bare] at h ⊢
      rw [validateDefault, validateDefault, h]
theorem firstInvalidField_bare (o : JMap) : (fs : List Field) →
    firstInvalidField o (bareFields fs) = firstInvalidField o fs
  | [] => rfl
  | .mk n s _ _ _ _ _ :: fs => by
      rw [bareFields, firstInvalidField, firstInvalidField, firstInvalidField_bare o fs]
      cases o.get? n with
      | none => rfl
      | some fv =>
        dsimp only
        rw [validateDefault_bare fv s]
end

/-! ## The walk -/

/-- The outcome of a step without source positions. -/
def bareOut {α β : Type} (f : α → β) : Except Fault (α × Log) → Except Fault (β × Log)
  | .error e => .error e.bare
  | .ok r => .ok (f r.1, r.2.bare)

/-- The second step does without source positions what the first does with them. -/
def Blurs {α β : Type} (f : α → β) (m : W α) (m' : W β) : Prop := ∀ l, m' l.bare = bareOut f (m l)

theorem Blurs.pure {α β : Type} {f : α → β} {a : α} {b : β} (h : b = f a) :
    Blurs f (W.pure a) (W.pure b) := by
  intro l
  rw [h]
  rfl

theorem Blurs.bind {α β γ δ : Type} {f : α → β} {g : γ → δ} {m : W α} {m' : W β}
    {k : α → W γ} {k' : β → W δ} (hm : Blurs f m m') (hk : ∀ a, Blurs g (k a) (k' (f a))) :
    Blurs g (W.bind m k) (W.bind m' k') := by
  intro l
  unfold W.bind
  rw [hm l]
  cases m l with
  | error e => rfl
  | ok r => exact hk r.1 r.2

theorem Blurs.fail {α β : Type} {f : α → β} (e : ReadErr) (s : Option Span) :
    Blurs f (W.fail e s) (W.fail e none) := fun _ => rfl

theorem Blurs.lift {α β : Type} {f : α → β} {r : Except Fault α} {r' : Except Fault β}
    (h : r' = bareExcept f r) : Blurs f (W.lift r) (W.lift r') := by
  intro l
  rw [h]
  cases r <;> rfl

theorem Blurs.failIf {b b' : Bool} (h : b' = b) (e : ReadErr) (s : Option Span) :
    Blurs id (W.failIf b e s) (W.failIf b' e none) := by
  intro l
  rw [h]
  cases b <;> rfl

theorem Blurs.ite {α β : Type} {f : α → β} {c : Prop} [Decidable c] {m n : W α} {m' n' : W β}
    (hm : Blurs f m m') (hn : Blurs f n n') :
    Blurs f (if c then m else n) (if c then m' else n') := by
  split
  · exact hm
  · exact hn

theorem Blurs.warn {w w' : WalkWarning} (h : w' = w.bare) : Blurs id (W.warn w) (W.warn w') := by
  intro l
  rw [h]
  show Except.ok _ = Except.ok _
  simp [Log.bare]

theorem Blurs.consume (i : Nat) : Blurs id (W.consume i) (W.consume i) := fun _ => rfl

theorem identifierText_twice (s : String) : identifierText (identifierText s) = identifierText s := by
  unfold identifierText
  rw [String.toList_ofList, List.filter_filter]
  simp

attribute [local irreducible] identifierText

/-- A token with its text only if it is a doc comment. -/
def _root_.Avdl.Token.bare (t : Token) : Token := if t.type = .doc then t else ⟨t.type, ""⟩

theorem _root_.Avdl.Token.bare_type (t : Token) : t.bare.type = t.type := by
  unfold Token.bare
  split <;> rfl

/-- Tokens with the text of the doc comments only. -/
abbrev bareTokens (ts : List Token) : List Token := ts.map Token.bare

theorem scanDoc_bare (ts : List Token) : scanDoc (bareTokens ts) = scanDoc ts := by
  induction ts with
  | nil => rfl
  | cons t ts ih =>
    rw [bareTokens, List.map_cons, scanDoc, scanDoc, Token.bare_type, ih]
    cases h : t.type with
    | doc =>
      dsimp only
      rw [Token.bare, if_pos h]
    | _ => rfl

theorem extractDocComment_bare (ts : List Token) (i : Nat) :
    extractDocComment (bareTokens ts) i = extractDocComment ts i := by
  unfold extractDocComment findDoc
  rw [← List.map_take, ← List.map_reverse, scanDoc_bare, List.length_map]

theorem orphanedDocs_bare (ts : List Token) (c : List Nat) :
    orphanedDocs (bareTokens ts) c = orphanedDocs ts c := by
  unfold orphanedDocs
  rw [List.length_map]
  congr 1
  funext i
  rw [List.getElem?_map]
  cases ts[i]? with
  | none => rfl
  | some t =>
    dsimp only [Option.map_some]
    rw [Token.bare_type]

theorem walkDoc_bare (tokens : List Token) (start : Nat) :
    Blurs id (walkDoc tokens start) (walkDoc (bareTokens tokens) start) := by
  unfold walkDoc
  rw [extractDocComment_bare]
  split
  · exact .bind (.consume _) fun _ => .pure rfl
  · exact .pure rfl

section
variable [CharTables] [FloatTables] [CaseTables]

omit [CharTables] [CaseTables] in
mutual
theorem walkJson_bare : (v : JVal) → walkJson v.bare = bareExcept id (walkJson v)
  | .null | .true | .false | .str _ => by rw [JVal.bare]; rfl
  | .int text _ => by
      rw [JVal.bare, walkJson, walkJson]
      cases parseIntegerLiteral text <;> rfl
  | .float text _ => by
      rw [JVal.bare, walkJson, walkJson]
      cases parseFloatingPointLiteral text <;> rfl
  | .arr l => by
      rw [JVal.bare, walkJson, walkJson, walkJsonList_bare l]
      cases walkJsonList l <;> rfl
  | .obj m => by
      rw [JVal.bare, walkJson, walkJson, walkJsonPairs_bare [] m]
      cases walkJsonPairs [] m <;> rfl
theorem walkJsonList_bare : (vs : List JVal) →
    walkJsonList (bareVals vs) = bareExcept id (walkJsonList vs)
  | [] => rfl
  | v :: vs => by
      rw [bareVals, walkJsonList, walkJsonList, walkJson_bare v, walkJsonList_bare vs]
      cases walkJson v with
      | error e => rfl
      | ok j => cases walkJsonList vs <;> rfl
theorem walkJsonPairs_bare (acc : JMap) : (ps : List (String × JVal)) →
    walkJsonPairs acc (barePairs ps) = bareExcept id (walkJsonPairs acc ps)
  | [] => rfl
  | (k, v) :: ps => by
      rw [barePairs, walkJsonPairs, walkJsonPairs, walkJson_bare v]
      cases walkJson v with
      | error e => rfl
      | ok j => exact walkJsonPairs_bare _ ps
end

omit [FloatTables] [CaseTables] in
theorem walkAliases_bare (span : Option Span) (js : List Json) :
    Blurs id (walkAliases span js) (walkAliases none js) := by
  induction js with
  | nil => exact .pure rfl
  | cons j js ih =>
    cases j with
    | str s =>
      rw [walkAliases, walkAliases]
      exact .bind (.ite (.pure rfl) (.warn rfl)) fun _ => .bind ih fun _ => .pure rfl
    | _ => exact .fail _ _

omit [FloatTables] in
theorem annotStep_bare (ctx : PropCtx) (acc : SchemaProps) (name : String) (v : Json)
    (span : Option Span) :
    Blurs id (annotStep ctx acc name v span) (annotStep ctx acc name v none) := by
  unfold annotStep
  refine .ite ?_ (.ite ?_ (.ite ?_ (.ite (.fail _ _) (.pure rfl))))
  · cases v <;> first | exact .pure rfl | exact .fail _ _
  · cases v <;> first
      | exact .bind (walkAliases_bare _ _) fun _ => .pure rfl
      | exact .fail _ _
  · cases parseOrderAnnot v <;> first | exact .pure rfl | exact .fail _ _

theorem walkAnnots_bare (ctx : PropCtx) (as : List Annot) : ∀ acc,
    Blurs id (walkAnnots ctx acc as) (walkAnnots ctx acc (as.map Annot.bare)) := by
  induction as with
  | nil => intro acc; exact .pure rfl
  | cons a as ih =>
    intro acc
    rw [List.map_cons, walkAnnots, walkAnnots]
    refine .bind (.lift (walkJson_bare a.value)) fun v => ?_
    rw [show identifierText a.bare.name = identifierText a.name from identifierText_twice _]
    exact .bind (annotStep_bare _ _ _ _ _) fun _ =>
      ih _

omit [CharTables] [FloatTables] [CaseTables] in
theorem finishFullType_bare (ps : Props) (span : Option Span) (s : Schema) :
    Blurs Schema.bare (finishFullType ps span s) (finishFullType ps none s.bare) := by
  unfold finishFullType
  rw [isTypeReference_bare, isNonNullableUnion_bare, applyProps_bare]
  exact .ite (.pure rfl) (.ite (.fail _ _)
    (.bind (f := id) (.ite (.warn rfl) (.pure rfl)) fun _ => .pure rfl))

omit [CharTables] [FloatTables] [CaseTables] in
theorem walkPrim_bare (p : PrimTok) : walkPrim p.bare = bareExcept Schema.bare (walkPrim p) := by
  cases p with
  | decimal p sp s =>
    unfold walkPrim PrimTok.bare
    cases s with
    | none =>
      dsimp only [Option.map_none]
      repeat' first | rfl | split
    | some s =>
      dsimp only [Option.map_some, bareName]
      repeat' first | rfl | split
  | _ => rfl

omit [CharTables] [FloatTables] [CaseTables] in
theorem spans_map_bare (ts : List FullType) :
    (bareFullTypes ts).map FullType.span = ts.map fun _ => none := by
  rw [bareFullTypes_map, List.map_map]
  congr 1
  funext t
  cases t
  rfl

mutual
theorem walkFullType_bare (ns : Option String) : (t : FullType) →
    Blurs Schema.bare (walkFullType ns t) (walkFullType ns t.bare)
  | .mk as t sp => by
      rw [FullType.bare, walkFullType, walkFullType]
      exact .bind (walkAnnots_bare _ as _) fun p => .bind (walkPlainType_bare ns t) fun s =>
        finishFullType_bare _ _ s
theorem walkPlainType_bare (ns : Option String) : (t : PlainType) →
    Blurs Schema.bare (walkPlainType ns t) (walkPlainType ns t.bare)
  | .array t => by
      rw [PlainType.bare, walkPlainType, walkPlainType]
      exact .bind (walkFullType_bare ns t) fun s => .pure rfl
  | .map t => by
      rw [PlainType.bare, walkPlainType, walkPlainType]
      exact .bind (walkFullType_bare ns t) fun s => .pure rfl
  | .union ts => by
      rw [PlainType.bare, walkPlainType, walkPlainType, spans_map_bare]
      exact .bind (walkFullTypes_bare ns ts) fun ss => .lift (checkUnion_bare ss _ _)
  | .prim p b sp => by
      rw [PlainType.bare, walkPlainType, walkPlainType]
      exact .bind (.lift (walkPrim_bare p)) fun s => .lift (wrapOptional_bare b _ s)
  | .named i span b => by
      rw [PlainType.bare, walkPlainType, walkPlainType, identifierText_twice,
        refTo_bare (span := span)]
      exact .lift (wrapOptional_bare b _ _)
theorem walkFullTypes_bare (ns : Option String) : (ts : List FullType) →
    Blurs (List.map Schema.bare) (walkFullTypes ns ts) (walkFullTypes ns (bareFullTypes ts))
  | [] => .pure rfl
  | t :: ts => by
      rw [bareFullTypes, walkFullTypes, walkFullTypes]
      exact .bind (walkFullType_bare ns t) fun s => .bind (walkFullTypes_bare ns ts) fun ss =>
        .pure rfl
end

omit [CharTables] [FloatTables] [CaseTables] in
theorem checkDefault_bare (f : String) (span : Option Span) (d : Option Json) (s : Schema) :
    Blurs id (checkDefault f span d s) (checkDefault f none d s.bare) := by
  unfold checkDefault
  cases d with
  | none => exact .pure rfl
  | some v =>
    dsimp only
    rw [validateDefault_bare]
    cases validateDefault v s with
    | none => exact .pure rfl
    | some r => exact .fail _ _

omit [CharTables] [CaseTables] in
theorem walkDefault_bare (d : Option JVal) :
    walkDefault (d.map JVal.bare) = bareExcept id (walkDefault d) := by
  cases d with
  | none => rfl
  | some v =>
    rw [Option.map_some, walkDefault, walkDefault, walkJson_bare]
    cases walkJson v <;> rfl

theorem walkVariable_bare (tokens : List Token) (type : Schema) (dd : Option String) (v : VarDecl) :
    Blurs Field.bare (walkVariable tokens type dd v) (walkVariable (bareTokens tokens) type.bare dd v.bare) := by
  unfold walkVariable VarDecl.bare
  refine .bind (walkDoc_bare _ _) fun _ => .bind (walkAnnots_bare _ _ _) fun p =>
    .bind (.lift (walkDefault_bare v.default)) fun d => ?_
  dsimp only [id_eq]
  rw [fixOptional_bare, identifierText_twice]
  exact .bind (checkDefault_bare _ _ _ _) fun _ => .pure rfl

theorem walkVariables_bare (tokens : List Token) (type : Schema) (dd : Option String)
    (vs : List VarDecl) : Blurs (List.map Field.bare) (walkVariables tokens type dd vs)
      (walkVariables (bareTokens tokens) type.bare dd (vs.map VarDecl.bare)) := by
  induction vs with
  | nil => exact .pure rfl
  | cons v vs ih =>
    rw [List.map_cons, walkVariables, walkVariables]
    exact .bind (walkVariable_bare _ _ _ _) fun f => .bind ih fun fs => .pure rfl

theorem walkField_bare (tokens : List Token) (ns : Option String) (d : FieldDecl) :
    Blurs (List.map Field.bare) (walkField tokens ns d) (walkField (bareTokens tokens) ns d.bare) :=
  .bind (walkDoc_bare _ _) fun _ => .bind (walkFullType_bare _ _) fun _ => walkVariables_bare _ _ _ _

omit [CharTables] [FloatTables] [CaseTables] in
theorem checkFieldNames_bare {α : Type} (r : String) (fs : List Field) :
    ∀ (seen : List String) (spans : List (Option Span)) (l : List α),
      Blurs id (checkFieldNames r seen fs spans)
        (checkFieldNames r seen (fs.map Field.bare) (l.map fun _ => none)) := by
  induction fs with
  | nil => intro seen spans l; exact .pure rfl
  | cons f fs ih =>
    intro seen spans l
    rw [List.map_cons, checkFieldNames, checkFieldNames, fieldName_bare, headSpan_none,
      ← List.map_tail]
    exact .ite (.fail _ _) (ih _ _ _)

theorem walkFields_bare (tokens : List Token) (ns : Option String) (r : String)
    (ds : List FieldDecl) : ∀ seen, Blurs (List.map Field.bare) (walkFields tokens ns r seen ds)
      (walkFields (bareTokens tokens) ns r seen (ds.map FieldDecl.bare)) := by
  induction ds with
  | nil => intro seen; exact .pure rfl
  | cons d ds ih =>
    intro seen
    rw [List.map_cons, walkFields, walkFields]
    have e : d.bare.vars.map VarDecl.identSpan = d.vars.map fun _ => none := by
      rw [FieldDecl.bare, List.map_map]
      rfl
    rw [e]
    exact .bind (walkField_bare _ _ _) fun fs => .bind (checkFieldNames_bare _ _ _ _ _) fun _ =>
      .bind (ih _) fun rest => .pure (by rw [List.map_append])

/-- A schema and a namespace without source positions. -/
def bareFst (r : Schema × Option String) : Schema × Option String := (r.1.bare, r.2)

theorem walkRecord_bare (tokens : List Token) (ns : Option String) (d : RecordDecl) :
    Blurs bareFst (walkRecord tokens ns d) (walkRecord (bareTokens tokens) ns d.bare) := by
  unfold walkRecord
  rw [show identifierText d.bare.ident = identifierText d.ident from identifierText_twice _]
  exact .bind (walkDoc_bare _ _) fun _ => .bind (walkAnnots_bare _ _ _) fun _ =>
    .bind (.failIf rfl _ _) fun _ => .bind (walkFields_bare _ _ _ _ _) fun fs =>
      .pure (by rw [bareFst, Schema.bare, bareFields_map]; rfl)

omit [CharTables] [FloatTables] [CaseTables] in
theorem checkSymbols_bare (ss : List (String × Option Span)) : ∀ seen,
    Blurs id (checkSymbols seen ss) (checkSymbols seen (ss.map plainName)) := by
  induction ss with
  | nil => intro seen; exact .pure rfl
  | cons s ss ih =>
    intro seen
    rw [List.map_cons, checkSymbols, checkSymbols,
      show identifierText (plainName s).1 = identifierText s.1 from identifierText_twice _]
    exact .ite (.fail _ _) (ih _)

omit [CharTables] [FloatTables] [CaseTables] in
theorem checkEnumDefault_bare (symbols : List String) (d : Option (String × Option Span)) :
    Blurs id (checkEnumDefault symbols d) (checkEnumDefault symbols (d.map plainName)) := by
  cases d with
  | none => exact .pure rfl
  | some s =>
    rw [Option.map_some, checkEnumDefault, checkEnumDefault,
      show identifierText (plainName s).1 = identifierText s.1 from identifierText_twice _]
    exact .ite (.pure rfl) (.fail _ _)

theorem walkEnum_bare (tokens : List Token) (ns : Option String) (d : EnumDecl) :
    Blurs Schema.bare (walkEnum tokens ns d) (walkEnum (bareTokens tokens) ns d.bare) := by
  unfold walkEnum
  rw [show identifierText d.bare.ident = identifierText d.ident from identifierText_twice _]
  exact .bind (walkDoc_bare _ _) fun _ => .bind (walkAnnots_bare _ _ _) fun _ =>
    .bind (.failIf rfl _ _) fun _ => .bind (checkSymbols_bare _ _) fun _ =>
      .bind (checkEnumDefault_bare _ _) fun _ => .pure rfl

theorem walkFixed_bare (tokens : List Token) (ns : Option String) (d : FixedDecl) :
    Blurs Schema.bare (walkFixed tokens ns d) (walkFixed (bareTokens tokens) ns d.bare) := by
  unfold walkFixed
  rw [show identifierText d.bare.ident = identifierText d.ident from identifierText_twice _]
  refine .bind (walkDoc_bare _ _) fun _ => .bind (walkAnnots_bare _ _ _) fun _ =>
    .bind (.failIf rfl _ _) fun _ => ?_
  show Blurs _ (match parseIntegerAsU32 d.size with | none => _ | some _ => _)
    (match parseIntegerAsU32 d.size with | none => _ | some _ => _)
  cases parseIntegerAsU32 d.size with
  | none => exact .fail _ _
  | some n => exact .pure (by rw [← tryPromote_bare]; rfl)

theorem walkNamed_bare (tokens : List Token) (ns : Option String) (d : NamedDecl) :
    Blurs bareFst (walkNamed tokens ns d) (walkNamed (bareTokens tokens) ns d.bare) := by
  cases d with
  | record d => exact walkRecord_bare tokens ns d
  | enum d => exact .bind (walkEnum_bare tokens ns d) fun _ => .pure rfl
  | fixed d => exact .bind (walkFixed_bare tokens ns d) fun _ => .pure rfl

omit [CharTables] [FloatTables] [CaseTables] in
theorem spans_bare (d : NamedDecl) : d.bare.spans = [] := by
  cases d with
  | record d =>
    rw [NamedDecl.bare, NamedDecl.spans, fieldSpans, List.filterMap_eq_nil_iff]
    intro v hv
    obtain ⟨f, hf, hv⟩ := List.mem_flatMap.mp hv
    obtain ⟨f0, _, rfl⟩ := List.mem_map.mp hf
    obtain ⟨v0, _, rfl⟩ := List.mem_map.mp hv
    rfl
  | enum d => rfl
  | fixed d => rfl

theorem walkParams_bare (tokens : List Token) (ns : Option String) (m : String) (ps : List Param) :
    ∀ seen, Blurs (List.map Field.bare) (walkParams tokens ns m seen ps)
      (walkParams (bareTokens tokens) ns m seen (ps.map Param.bare)) := by
  induction ps with
  | nil => intro seen; exact .pure rfl
  | cons p ps ih =>
    intro seen
    rw [List.map_cons, walkParams, walkParams]
    refine .bind (walkDoc_bare _ _) fun _ => .bind (walkFullType_bare _ _) fun _ =>
      .bind (walkVariable_bare _ _ _ _) fun f => ?_
    rw [fieldName_bare]
    exact .ite (.fail _ _) (.bind (ih _) fun _ => .pure rfl)

theorem walkResult_bare (ns : Option String) (t : Option PlainType) :
    Blurs Schema.bare (walkResult ns t) (walkResult ns (t.map PlainType.bare)) := by
  cases t with
  | none => exact .pure rfl
  | some t => exact walkPlainType_bare ns t

omit [CharTables] [FloatTables] [CaseTables] in
theorem messageErrors_bare (ns : Option String) (es : List (String × Option Span)) :
    messageErrors ns (es.map plainName) = (messageErrors ns es).map (List.map Schema.bare) := by
  cases es with
  | nil => rfl
  | cons e es =>
    show some (List.map _ (List.map _ (e :: es))) = some (List.map _ (List.map _ (e :: es)))
    rw [List.map_map, List.map_map]
    congr 2
    funext x
    show refTo (identifierText (plainName x).1) none ns = _
    rw [show identifierText (plainName x).1 = identifierText x.1 from identifierText_twice _]
    exact refTo_bare _ _ _

theorem walkMessage_bare (tokens : List Token) (ns : Option String) (d : MessageDecl) :
    Blurs bareMessage (walkMessage tokens ns d) (walkMessage (bareTokens tokens) ns d.bare) := by
  unfold walkMessage
  rw [show identifierText d.bare.ident = identifierText d.ident from identifierText_twice _]
  exact .bind (walkDoc_bare _ _) fun _ => .bind (walkAnnots_bare _ _ _) fun p =>
    .bind (walkResult_bare _ _) fun response =>
      .bind (.failIf (by rw [isTypeReference_bare]; rfl) _ _) fun _ =>
        .bind (walkParams_bare _ _ _ _ _) fun request =>
          .bind (.failIf (by rw [isNull_bare]; rfl) _ _) fun _ => .pure (by
            show (_, { errors := messageErrors ns (d.errors.map plainName), .. : Message }) = _
            rw [messageErrors_bare]
            rfl)

omit [CharTables] [FloatTables] [CaseTables] in
theorem insertMessage_bare (ms : List (String × Message)) (n : String) (m : Message) :
    insertMessage (ms.map bareMessage) n m.bare = (insertMessage ms n m).map bareMessage := by
  unfold insertMessage
  rw [List.map_append, List.filter_map]
  rfl

/-- What the body loop of a protocol gives, without source positions. -/
def bareBody (r : List (String × Message) × List DeclItem × Option String) :
    List (String × Message) × List DeclItem × Option String :=
  (r.1.map bareMessage, r.2.1.map DeclItem.bare, r.2.2)

theorem walkBody_bare (tokens : List Token) (items : List BodyItem) :
    ∀ (ns : Option String) (ms : List (String × Message)), Blurs bareBody
      (walkBody tokens ns ms items)
      (walkBody (bareTokens tokens) ns (ms.map bareMessage) (items.map BodyItem.bare)) := by
  induction items with
  | nil => intro ns ms; exact .pure rfl
  | cons i items ih =>
    intro ns ms
    cases i with
    | import_ i =>
      rw [List.map_cons, BodyItem.bare, walkBody, walkBody]
      exact .bind (ih _ _) fun _ => .pure rfl
    | named d span =>
      rw [List.map_cons, BodyItem.bare, walkBody, walkBody, spans_bare]
      exact .bind (walkNamed_bare _ _ _) fun s => .bind (ih _ _) fun _ => .pure rfl
    | message m =>
      rw [List.map_cons, BodyItem.bare, walkBody, walkBody]
      refine .bind (walkMessage_bare _ _ _) fun nm => ?_
      rw [bareMessage, insertMessage_bare]
      exact ih _ _

/-- Declarations and their schemas without source positions. -/
def bareItems (r : List Schema × List DeclItem × Option String) :
    List Schema × List DeclItem × Option String :=
  (r.1.map Schema.bare, r.2.1.map DeclItem.bare, r.2.2)

theorem walkItems_bare (tokens : List Token) (items : List FileItem) : ∀ ns : Option String,
    Blurs bareItems (walkItems tokens ns items) (walkItems (bareTokens tokens) ns (items.map FileItem.bare)) := by
  induction items with
  | nil => intro ns; exact .pure rfl
  | cons i items ih =>
    intro ns
    cases i with
    | import_ i =>
      rw [List.map_cons, FileItem.bare, walkItems, walkItems]
      exact .bind (ih _) fun _ => .pure rfl
    | named d span =>
      rw [List.map_cons, FileItem.bare, walkItems, walkItems, spans_bare]
      exact .bind (walkNamed_bare _ _ _) fun s => .bind (ih _) fun _ => .pure rfl

/-- A protocol and its declarations without source positions. -/
def bareProtocol (r : Protocol × List DeclItem) : Protocol × List DeclItem :=
  (r.1.bare, r.2.map DeclItem.bare)

/-- A file and its declarations without source positions. -/
def bareFile (r : IdlFile × List DeclItem) : IdlFile × List DeclItem :=
  (r.1.bare, r.2.map DeclItem.bare)

theorem walkProtocol_bare (tokens : List Token) (d : ProtocolDecl) :
    Blurs bareProtocol (walkProtocol tokens d) (walkProtocol (bareTokens tokens) d.bare) := by
  unfold walkProtocol
  rw [show identifierText d.bare.ident = identifierText d.ident from identifierText_twice _]
  exact .bind (walkDoc_bare _ _) fun _ => .bind (walkAnnots_bare _ _ _) fun _ =>
    .bind (.failIf rfl _ _) fun _ => .bind (walkBody_bare _ _ _ []) fun _ => .pure rfl

theorem walkFile_bare (tokens : List Token) (ast : FileAst) :
    Blurs bareFile (walkFile tokens ast) (walkFile (bareTokens tokens) ast.bare) := by
  cases ast with
  | protocol d =>
    rw [FileAst.bare, walkFile, walkFile]
    exact .bind (walkProtocol_bare _ _) fun _ => .pure rfl
  | schema ns main body =>
    have e : (ns.map identifierText).map identifierText = ns.map identifierText := by
      cases ns with
      | none => rfl
      | some n => exact congrArg some (identifierText_twice n)
    rw [FileAst.bare, walkFile, walkFile, e]
    refine .bind (walkItems_bare _ _ _) fun r => ?_
    cases main with
    | none => exact .pure rfl
    | some t => exact .bind (walkFullType_bare _ _) fun _ => .pure rfl

/-- The result of the reader without source positions. -/
def bareResult (r : ReadResult) : ReadResult :=
  { r with file := r.file.bare, decls := r.decls.map DeclItem.bare,
           warnings := r.warnings.map WalkWarning.bare }

/-- The reader passes positions on and does not look at them, nor at backticks. -/
theorem readFile_bare (tokens : List Token) (ast : FileAst) :
    readFile (bareTokens tokens) ast.bare = bareExcept bareResult (readFile tokens ast) := by
  unfold readFile
  have h := walkFile_bare tokens ast { consumed := [], warnings := [] }
  rw [show Log.bare { consumed := [], warnings := [] } = { consumed := [], warnings := [] } from rfl]
    at h
  rw [h]
  cases walkFile tokens ast { consumed := [], warnings := [] } with
  | error e => rfl
  | ok r =>
    show Except.ok _ = Except.ok _
    rw [orphanedDocs_bare]
    rfl

end

end BareReader

end Avdl

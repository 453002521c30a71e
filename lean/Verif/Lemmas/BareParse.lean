import Verif.Lemmas.ParserSound
/-!
# Source positions and backticks and the parser

Trees and tokens without source positions and with identifiers without backticks: the parser does
not look at positions or the text of identifiers.
-/

namespace Avdl

/-- A token without its position in the text. -/
def PTok.raw (t : PTok) : PTok := { t with span := none }

/-- A token without its position in the text and without backticks. -/
def PTok.plain (t : PTok) : PTok := { t with span := none, text := identifierText t.text }

/-- A token without its position in the text; identifiers and keywords without backticks. -/
def PTok.bare (t : PTok) : PTok := if t.kind.isIdent then t.plain else t.raw

theorem PTok.bare_kind (t : PTok) : t.bare.kind = t.kind := by
  unfold PTok.bare
  split <;> rfl

theorem PTok.bare_index (t : PTok) : t.bare.index = t.index := by
  unfold PTok.bare
  split <;> rfl

theorem PTok.bare_span (t : PTok) : t.bare.span = none := by
  unfold PTok.bare
  split <;> rfl

mutual
/-- A JSON value without source positions. -/
def JVal.bare : JVal → JVal
  | .null => .null
  | .true => .true
  | .false => .false
  | .str raw => .str raw
  | .int text _ => .int text none
  | .float text _ => .float text none
  | .arr l => .arr (bareVals l)
  | .obj m => .obj (barePairs m)
/-- JSON values without source positions. -/
def bareVals : List JVal → List JVal
  | [] => []
  | v :: vs => v.bare :: bareVals vs
/-- The entries of a JSON object without source positions. -/
def barePairs : List (String × JVal) → List (String × JVal)
  | [] => []
  | (k, v) :: ps => (k, v.bare) :: barePairs ps
end

/-- An entry of a JSON object without source positions. -/
def barePair (p : String × JVal) : String × JVal := (p.1, p.2.bare)

theorem bareVals_map (vs : List JVal) : bareVals vs = vs.map JVal.bare := by
  induction vs with
  | nil => rfl
  | cons v vs ih => rw [bareVals, ih]; rfl

theorem barePairs_map (ps : List (String × JVal)) : barePairs ps = ps.map barePair := by
  induction ps with
  | nil => rfl
  | cons p ps ih => obtain ⟨k, v⟩ := p; rw [barePairs, ih]; rfl

/-- An annotation without source positions. -/
def Annot.bare (a : Annot) : Annot := ⟨identifierText a.name, a.value.bare, none⟩

/-- A name without its source position. -/
def bareName (e : String × Option Span) : String × Option Span := (e.1, none)

/-- A name without its source position and without backticks. -/
def plainName (e : String × Option Span) : String × Option Span := (identifierText e.1, none)

/-- A primitive type without source positions. -/
def PrimTok.bare : PrimTok → PrimTok
  | .decimal p _ s => .decimal p none (s.map bareName)
  | p => p

mutual
/-- A type without source positions. -/
def PlainType.bare : PlainType → PlainType
  | .array t => .array t.bare
  | .map t => .map t.bare
  | .union ts => .union (bareFullTypes ts)
  | .prim p b _ => .prim p.bare b none
  | .named i _ b => .named (identifierText i) none b
/-- A type without source positions. -/
def FullType.bare : FullType → FullType
  | .mk as t _ => .mk (as.map Annot.bare) t.bare none
/-- Types without source positions. -/
def bareFullTypes : List FullType → List FullType
  | [] => []
  | t :: ts => t.bare :: bareFullTypes ts
end

theorem bareFullTypes_map (ts : List FullType) : bareFullTypes ts = ts.map FullType.bare := by
  induction ts with
  | nil => rfl
  | cons t ts ih => rw [bareFullTypes, ih]; rfl

/-- A variable without source positions. -/
def VarDecl.bare (v : VarDecl) : VarDecl := 
  { start := v.start, annots := v.annots.map Annot.bare, ident := identifierText v.ident,
    default := v.default.map JVal.bare, valueSpan := none, identSpan := none, defaultSpan := none }

/-- A field without source positions. -/
def FieldDecl.bare (d : FieldDecl) : FieldDecl :=
  ⟨d.start, d.type.bare, d.vars.map VarDecl.bare⟩

/-- A record without source positions. -/
def RecordDecl.bare (d : RecordDecl) : RecordDecl :=
  { d with annots := d.annots.map Annot.bare, fields := d.fields.map FieldDecl.bare,
           ident := identifierText d.ident, identSpan := none }

/-- An enum without source positions. -/
def EnumDecl.bare (d : EnumDecl) : EnumDecl :=
  { d with annots := d.annots.map Annot.bare, symbols := d.symbols.map plainName,
           default := d.default.map plainName, ident := identifierText d.ident, identSpan := none }

/-- A fixed without source positions. -/
def FixedDecl.bare (d : FixedDecl) : FixedDecl :=
  { d with annots := d.annots.map Annot.bare, ident := identifierText d.ident, identSpan := none,
           sizeSpan := none }

/-- A named type without source positions. -/
def NamedDecl.bare : NamedDecl → NamedDecl
  | .record d => .record d.bare
  | .enum d => .enum d.bare
  | .fixed d => .fixed d.bare

/-- An import without source positions. -/
def ImportStmt.bare (i : ImportStmt) : ImportStmt := { i with span := none }

/-- A parameter without source positions. -/
def Param.bare (p : Param) : Param := ⟨p.start, p.type.bare, p.var.bare, none⟩

/-- A message without source positions. -/
def MessageDecl.bare (m : MessageDecl) : MessageDecl :=
  { m with annots := m.annots.map Annot.bare, result := m.result.map PlainType.bare,
           params := m.params.map Param.bare, ident := identifierText m.ident,
           errors := m.errors.map plainName, span := none }

/-- A child of a protocol without source positions. -/
def BodyItem.bare : BodyItem → BodyItem
  | .import_ i => .import_ i.bare
  | .named d _ => .named d.bare none
  | .message m => .message m.bare

/-- A child of a schema file without source positions. -/
def FileItem.bare : FileItem → FileItem
  | .import_ i => .import_ i.bare
  | .named d _ => .named d.bare none

/-- A protocol without source positions. -/
def ProtocolDecl.bare (d : ProtocolDecl) : ProtocolDecl :=
  { d with annots := d.annots.map Annot.bare, body := d.body.map BodyItem.bare,
           ident := identifierText d.ident, identSpan := none }

/-- A file without source positions. -/
def FileAst.bare : FileAst → FileAst
  | .protocol d => .protocol d.bare
  | .schema ns main body => .schema (ns.map identifierText) (main.map FullType.bare) (body.map FileItem.bare)

namespace BareParse

/-- Tokens without their positions. -/
abbrev bares (ts : List PTok) : List PTok := ts.map PTok.bare

/-- The result of a parser without positions. -/
def on {α β : Type} (g : α → β) (r : α × List PTok) : β × List PTok := (g r.1, bares r.2)

/-- A parser that does not look at positions. -/
def Blind {α : Type} (p : P α) (g : α → α) : Prop := ∀ ts, p (bares ts) = (p ts).map (on g)

theorem bind_on {α γ : Type} {m : Option (α × List PTok)} {g : α → α}
    {k k' : α × List PTok → Option γ} {f : γ → γ}
    (e : ∀ a ts, (k' (g a, bares ts)) = (k (a, ts)).map f) :
    (m.map (on g) >>= k') = (m >>= k).map f := by
  cases m with
  | none => rfl
  | some r => exact e r.1 r.2

theorem pTok_bare (k : Kind) : Blind (pTok k) PTok.bare := by
  intro ts
  cases ts with
  | nil => rfl
  | cons t ts =>
    show (if t.bare.kind = k then _ else _) = Option.map _ (if t.kind = k then _ else _)
    rw [PTok.bare_kind]
    split <;> rfl

theorem pTok_raw {k : Kind} (h : k.isIdent = false) : Blind (pTok k) PTok.raw := by
  intro ts
  cases ts with
  | nil => rfl
  | cons t ts =>
    show (if t.bare.kind = k then _ else _) = Option.map _ (if t.kind = k then _ else _)
    rw [PTok.bare_kind]
    split
    · next hk =>
      have e : t.bare = t.raw := by
        rw [PTok.bare, hk, h]
        rfl
      show some (t.bare, _) = some (t.raw, _)
      rw [e]
    · rfl

theorem pIdent_bare : Blind pIdent PTok.plain := by
  intro ts
  cases ts with
  | nil => rfl
  | cons t ts =>
    show (if t.bare.kind.isIdent then _ else _) = Option.map _ (if t.kind.isIdent then _ else _)
    rw [PTok.bare_kind]
    split
    · next hk =>
      have e : t.bare = t.plain := by
        rw [PTok.bare, hk]
        rfl
      show some (t.bare, _) = some (t.plain, _)
      rw [e]
    · rfl

theorem bares_cons (t : PTok) (ts : List PTok) : bares (t :: ts) = t.bare :: bares ts := rfl

theorem nextIs_bare (k : Kind) (ts : List PTok) : nextIs k (bares ts) = nextIs k ts := by
  cases ts with
  | nil => rfl
  | cons t ts =>
    show (t.bare.kind == k) = (t.kind == k)
    rw [PTok.bare_kind]

theorem tail_bare (ts : List PTok) : (bares ts).tail = bares ts.tail := by
  cases ts <;> rfl

theorem firstIndex_bare (ts : List PTok) : firstIndex (bares ts) = firstIndex ts := by
  cases ts with
  | nil => rfl
  | cons t ts => exact t.bare_index

theorem firstSpan_bare (ts : List PTok) : firstSpan (bares ts) = none := by
  cases ts with
  | nil => rfl
  | cons t ts => exact t.bare_span

theorem nodeSpan_bare (ts : List PTok) : nodeSpan (bares ts) = none := by
  cases ts with
  | nil => rfl
  | cons t ts =>
    unfold nodeSpan
    rw [show (bares (t :: ts)).head?.bind PTok.span = none from t.bare_span]

theorem spanBetween_bare (ts ts' : List PTok) : spanBetween (bares ts) (bares ts') = none := by
  unfold spanBetween
  rw [← List.map_take]
  exact nodeSpan_bare _

theorem pCommas_bare {α : Type} {one : P α} {g : α → α} (h : Blind one g) (close : Kind) (n : Nat) :
    Blind (pCommas one close n) (List.map g) := by
  induction n with
  | zero => intro ts; rfl
  | succ n ih =>
    intro ts
    rw [pCommas, pCommas, h ts]
    refine bind_on fun a ts => ?_
    dsimp only
    rw [nextIs_bare, tail_bare]
    split
    · rw [ih]
      exact bind_on fun as ts => rfl
    · rw [pTok_bare]
      exact bind_on fun as ts => rfl

theorem pCommasOpt_bare {α : Type} {one : P α} {g : α → α} (h : Blind one g) (close : Kind)
    (n : Nat) : Blind (pCommasOpt one close n) (List.map g) := by
  intro ts
  rw [pCommasOpt, pCommasOpt, nextIs_bare, tail_bare]
  split
  · rfl
  · exact pCommas_bare h close n ts

theorem pUntil_bare {α : Type} {one : P α} {g : α → α} (h : Blind one g) (close : Kind) (n : Nat) :
    Blind (pUntil one close n) (List.map g) := by
  induction n with
  | zero => intro ts; rfl
  | succ n ih =>
    intro ts
    rw [pUntil, pUntil, nextIs_bare, tail_bare]
    split
    · rfl
    · rw [h ts]
      refine bind_on fun a ts => ?_
      dsimp only
      rw [ih]
      exact bind_on fun as ts => rfl

theorem pPair_bare {value : P JVal} (h : Blind value JVal.bare) : Blind (pPair value) barePair := by
  intro ts
  rw [pPair, pPair, pTok_raw rfl]
  refine bind_on fun k ts => ?_
  dsimp only
  rw [pTok_bare]
  refine bind_on fun c ts => ?_
  dsimp only
  rw [h ts]
  exact bind_on fun v ts => rfl

theorem map_on {α β : Type} {g : α → α} {c : α → β} {d : β → β} (hc : ∀ a, c (g a) = d (c a))
    (m : Option (α × List PTok)) :
    (m.map (on g)).map (fun r => (c r.1, r.2)) = (m.map fun r => (c r.1, r.2)).map (on d) := by
  cases m with
  | none => rfl
  | some r =>
    show some (c (g r.1), _) = some (d (c r.1), _)
    rw [hc]
    rfl

theorem jsonLiteral_bare (t : PTok) : jsonLiteral t.bare = (jsonLiteral t).map JVal.bare := by
  unfold jsonLiteral
  rw [PTok.bare_kind]
  have e : t.kind.isIdent = false → t.bare = t.raw := fun h => by
    rw [PTok.bare, h]
    rfl
  split
  · rfl
  split
  · rfl
  split
  · rfl
  split
  · next h => rw [e (by rw [h]; rfl)]; rfl
  split
  · next h => rw [e (by rw [h]; rfl)]; rfl
  split
  · next h => rw [e (by rw [h]; rfl)]; rfl
  · rfl

theorem pJson_bare (n : Nat) : Blind (pJson n) JVal.bare := by
  induction n with
  | zero => intro ts; rfl
  | succ n ih =>
    intro ts
    cases ts with
    | nil => rfl
    | cons t ts =>
      show pJson (n + 1) (t.bare :: bares ts) = _
      rw [pJson, pJson, PTok.bare_kind]
      split
      · rw [pCommasOpt_bare (pPair_bare ih)]
        exact map_on (c := JVal.obj) (d := JVal.bare)
          (fun ps => by rw [JVal.bare, barePairs_map]) _
      · split
        · rw [pCommasOpt_bare ih]
          exact map_on (c := JVal.arr) (d := JVal.bare)
            (fun vs => by rw [JVal.bare, bareVals_map]) _
        · rw [jsonLiteral_bare]
          cases jsonLiteral t <;> rfl

theorem pAnnot_bare (n : Nat) : Blind (pAnnot n) Annot.bare := by
  intro ts0
  rw [pAnnot, pAnnot, pTok_bare]
  refine bind_on fun _ ts => ?_
  dsimp only
  rw [pIdent_bare]
  refine bind_on fun name ts => ?_
  dsimp only
  rw [pTok_bare]
  refine bind_on fun _ ts => ?_
  dsimp only
  rw [pJson_bare]
  refine bind_on fun v ts => ?_
  dsimp only
  rw [pTok_bare]
  refine bind_on fun _ ts => ?_
  dsimp only
  rw [spanBetween_bare]
  rfl

theorem pAnnots_bare (n : Nat) : Blind (pAnnots n) (List.map Annot.bare) := by
  induction n with
  | zero => intro ts; rfl
  | succ n ih =>
    intro ts
    rw [pAnnots, pAnnots, nextIs_bare]
    split
    · rw [pAnnot_bare]
      refine bind_on fun a ts => ?_
      dsimp only
      rw [ih]
      exact bind_on fun as ts => rfl
    · rfl

theorem pOptional_bare (ts : List PTok) :
    pOptional (bares ts) = ((pOptional ts).1, bares (pOptional ts).2) := by
  rw [pOptional, pOptional, nextIs_bare, tail_bare]
  split <;> rfl

theorem pDecimal_bare : Blind pDecimal PrimTok.bare := by
  intro ts
  rw [pDecimal, pDecimal, pTok_raw rfl]
  refine bind_on fun p ts => ?_
  dsimp only
  rw [nextIs_bare, tail_bare]
  split
  · rw [pTok_raw rfl]
    refine bind_on fun s ts => ?_
    dsimp only
    rw [pTok_bare]
    exact bind_on fun _ ts => rfl
  · rw [pTok_bare]
    exact bind_on fun _ ts => rfl

theorem simplePrim_bare {k : Kind} {p : PrimTok} (h : simplePrim k = some p) : p.bare = p := by
  obtain ⟨_, _, h⟩ := simplePrim_some.mp h
  cases h <;> rfl

theorem pTypes_bare (n : Nat) : Blind (pFull n) FullType.bare ∧ Blind (pPlain n) PlainType.bare := by
  induction n with
  | zero => exact ⟨fun ts => rfl, fun ts => rfl⟩
  | succ n ih =>
    obtain ⟨ihF, ihP⟩ := ih
    constructor
    · intro ts
      rw [pFull, pFull, pAnnots_bare]
      refine bind_on fun as ts1 => ?_
      dsimp only
      rw [ihP]
      refine bind_on fun t ts2 => ?_
      dsimp only
      rw [spanBetween_bare]
      rfl
    · intro ts
      cases ts with
      | nil => rfl
      | cons t ts =>
        show pPlain (n + 1) (t.bare :: bares ts) = _
        rw [pPlain, pPlain]
        rw [← bares_cons]
        simp only [nextIs_bare, tail_bare, pOptional_bare, spanBetween_bare]
        have hk := t.bare_kind
        simp only [hk]
        split
        · rw [ihF]
          refine bind_on fun f ts => ?_
          dsimp only
          rw [pTok_bare]
          exact bind_on fun _ ts => rfl
        split
        · rw [ihF]
          refine bind_on fun f ts => ?_
          dsimp only
          rw [pTok_bare]
          exact bind_on fun _ ts => rfl
        split
        · rw [pCommas_bare ihF]
          exact map_on (c := PlainType.union) (d := PlainType.bare)
            (fun fs => by rw [PlainType.bare, bareFullTypes_map]) _
        split
        · rw [pDecimal_bare]
          refine bind_on fun p ts1 => ?_
          dsimp only
          rw [pOptional_bare, spanBetween_bare]
          rfl
        cases hp : simplePrim t.kind with
        | some p =>
          have hb := simplePrim_bare hp
          dsimp only
          rw [Option.map_some, on, PlainType.bare, hb]
        | none =>
          dsimp only
          split
          · next hi =>
            have e : t.bare = t.plain := by
              rw [PTok.bare, hi]
              rfl
            rw [e]
            rfl
          · rfl

theorem pVar_bare (n : Nat) : Blind (pVar n) VarDecl.bare := by
  intro ts0
  rw [pVar, pVar, pAnnots_bare]
  refine bind_on fun as ts => ?_
  dsimp only
  rw [pIdent_bare]
  refine bind_on fun name ts => ?_
  dsimp only
  rw [nextIs_bare, tail_bare, firstIndex_bare, firstSpan_bare, firstSpan_bare]
  split
  · rw [pJson_bare]
    refine bind_on fun v ts => ?_
    dsimp only
    rw [spanBetween_bare]
    rfl
  · rfl

theorem pField_bare (n : Nat) : Blind (pField n) FieldDecl.bare := by
  intro ts0
  rw [pField, pField, (pTypes_bare n).1]
  refine bind_on fun t ts => ?_
  dsimp only
  rw [pCommas_bare (pVar_bare n), firstIndex_bare]
  exact bind_on fun vs ts => rfl

theorem pSymbol_bare (n : Nat) : Blind (pSymbol n) plainName := by
  intro ts0
  rw [pSymbol, pSymbol, pAnnots_bare]
  refine bind_on fun _ ts => ?_
  dsimp only
  rw [pIdent_bare]
  refine bind_on fun name ts => ?_
  dsimp only
  rw [spanBetween_bare]
  rfl

theorem pEnumDefault_bare : Blind pEnumDefault (Option.map plainName) := by
  intro ts
  rw [pEnumDefault, pEnumDefault, nextIs_bare, tail_bare]
  split
  · rw [pIdent_bare]
    refine bind_on fun d ts => ?_
    dsimp only
    rw [pTok_bare]
    exact bind_on fun _ ts => rfl
  · rfl

/-- A declaration and its position, without positions. -/
def bareNamed (d : NamedDecl × Option Span) : NamedDecl × Option Span := (d.1.bare, none)

theorem pNamed_bare (n : Nat) : Blind (pNamed n) bareNamed := by
  intro ts0
  rw [pNamed, pNamed, pAnnots_bare]
  refine bind_on fun as ts => ?_
  cases ts with
  | nil => rfl
  | cons k ts =>
    rw [bares_cons]
    dsimp only
    rw [pIdent_bare]
    refine bind_on fun name ts => ?_
    dsimp only
    have hk := k.bare_kind
    rw [firstIndex_bare, firstSpan_bare, hk]
    split
    · rw [pTok_bare]
      refine bind_on fun _ ts => ?_
      dsimp only
      rw [pTok_raw rfl]
      refine bind_on fun size ts => ?_
      dsimp only
      rw [pTok_bare]
      refine bind_on fun _ ts => ?_
      dsimp only
      rw [pTok_bare]
      exact bind_on fun _ ts => rfl
    split
    · rw [pTok_bare]
      refine bind_on fun _ ts => ?_
      dsimp only
      rw [pCommasOpt_bare (pSymbol_bare n)]
      refine bind_on fun syms ts => ?_
      dsimp only
      rw [pEnumDefault_bare]
      exact bind_on fun d ts => rfl
    split
    · rw [pTok_bare]
      refine bind_on fun _ ts => ?_
      dsimp only
      rw [pUntil_bare (pField_bare n)]
      exact bind_on fun fs ts => rfl
    · rfl

theorem pImport_bare : Blind pImport ImportStmt.bare := by
  intro ts0
  rw [pImport, pImport, pTok_bare]
  refine bind_on fun _ ts => ?_
  cases ts with
  | nil => rfl
  | cons k ts =>
    rw [bares_cons]
    dsimp only
    rw [PTok.bare_kind]
    cases importKind k.kind with
    | none => rfl
    | some kind =>
      show (pTok _ _ >>= _) = Option.map _ (pTok _ _ >>= _)
      rw [pTok_raw rfl]
      refine bind_on fun loc ts => ?_
      dsimp only
      rw [pTok_bare, firstSpan_bare]
      exact bind_on fun _ ts => rfl

theorem pParam_bare (n : Nat) : Blind (pParam n) Param.bare := by
  intro ts0
  rw [pParam, pParam, (pTypes_bare n).1]
  refine bind_on fun t ts => ?_
  dsimp only
  rw [pVar_bare, firstIndex_bare]
  refine bind_on fun v ts => ?_
  dsimp only
  rw [spanBetween_bare]
  rfl

theorem pResult_bare (n : Nat) : Blind (pResult n) (Option.map PlainType.bare) := by
  intro ts
  rw [pResult, pResult, nextIs_bare, tail_bare, nextIs_bare]
  split
  · rfl
  · rw [(pTypes_bare n).2]
    exact map_on (c := some) (d := Option.map PlainType.bare) (fun _ => rfl) _

theorem pName_bare : Blind pName plainName := by
  intro ts
  rw [pName, pName, pIdent_bare]
  cases pIdent ts <;> rfl

/-- The end of a message without positions. -/
def bareEnd (e : Bool × List (String × Option Span)) : Bool × List (String × Option Span) :=
  (e.1, e.2.map plainName)

theorem pMessageEnd_bare (n : Nat) : Blind (pMessageEnd n) bareEnd := by
  intro ts
  rw [pMessageEnd, pMessageEnd, nextIs_bare, nextIs_bare, tail_bare]
  split
  · rw [pTok_bare]
    cases pTok (.sym ';') ts.tail <;> rfl
  split
  · rw [pCommas_bare pName_bare]
    exact map_on (c := fun es => (false, es)) (d := bareEnd) (fun _ => rfl) _
  · rw [pTok_bare]
    cases pTok (.sym ';') ts <;> rfl

theorem pMessage_bare (n : Nat) : Blind (pMessage n) MessageDecl.bare := by
  intro ts0
  rw [pMessage, pMessage, pAnnots_bare]
  refine bind_on fun as ts => ?_
  dsimp only
  rw [pResult_bare]
  refine bind_on fun res ts => ?_
  dsimp only
  rw [pIdent_bare]
  refine bind_on fun name ts => ?_
  dsimp only
  rw [pTok_bare]
  refine bind_on fun _ ts => ?_
  dsimp only
  rw [pCommasOpt_bare (pParam_bare n)]
  refine bind_on fun ps ts => ?_
  dsimp only
  rw [pMessageEnd_bare, firstIndex_bare]
  refine bind_on fun e ts => ?_
  dsimp only
  rw [spanBetween_bare]
  rfl

theorem pBodyItem_bare (n : Nat) : Blind (pBodyItem n) BodyItem.bare := by
  intro ts
  rw [pBodyItem, pBodyItem, pImport_bare]
  cases pImport ts with
  | some r => rfl
  | none =>
    simp only [Option.map_none]
    rw [pNamed_bare]
    cases pNamed n ts with
    | some r => rfl
    | none =>
      simp only [Option.map_none]
      rw [pMessage_bare]
      exact map_on (c := BodyItem.message) (d := BodyItem.bare) (fun _ => rfl) _

theorem pFileItem_bare (n : Nat) : Blind (pFileItem n) FileItem.bare := by
  intro ts
  rw [pFileItem, pFileItem, pImport_bare]
  cases pImport ts with
  | some r => rfl
  | none =>
    simp only [Option.map_none]
    rw [pNamed_bare]
    exact map_on (c := fun d : NamedDecl × Option Span => FileItem.named d.1 d.2)
      (d := FileItem.bare) (fun _ => rfl) _

theorem pProtocol_bare (n : Nat) : Blind (pProtocol n) ProtocolDecl.bare := by
  intro ts0
  rw [pProtocol, pProtocol, pAnnots_bare]
  refine bind_on fun as ts => ?_
  dsimp only
  rw [pTok_bare]
  refine bind_on fun _ ts => ?_
  dsimp only
  rw [pIdent_bare]
  refine bind_on fun name ts => ?_
  dsimp only
  rw [pTok_bare]
  refine bind_on fun _ ts => ?_
  dsimp only
  rw [pUntil_bare (pBodyItem_bare n), firstIndex_bare]
  exact bind_on fun body ts => rfl

theorem pNamespace_bare : Blind pNamespace (Option.map identifierText) := by
  intro ts
  rw [pNamespace, pNamespace, nextIs_bare, tail_bare]
  split
  · rw [pIdent_bare]
    refine bind_on fun name ts => ?_
    dsimp only
    rw [pTok_bare]
    exact bind_on fun _ ts => rfl
  · rfl

theorem pMain_bare (n : Nat) : Blind (pMain n) (Option.map FullType.bare) := by
  intro ts
  rw [pMain, pMain, nextIs_bare, tail_bare]
  split
  · rw [(pTypes_bare n).1]
    refine bind_on fun t ts => ?_
    dsimp only
    rw [pTok_bare]
    exact bind_on fun _ ts => rfl
  · rfl

theorem pAll_bare {α : Type} {one : P α} {g : α → α} (h : Blind one g) (n : Nat) (ts : List PTok) :
    pAll one n (bares ts) = (pAll one n ts).map (List.map g) := by
  induction n generalizing ts with
  | zero => rfl
  | succ n ih =>
    cases ts with
    | nil => rfl
    | cons t ts =>
      show pAll one (n + 1) (t.bare :: bares ts) = _
      rw [pAll, pAll]
      rw [← bares_cons, h (t :: ts)]
      refine bind_on fun a ts => ?_
      dsimp only
      rw [ih]
      cases pAll one n ts <;> rfl

/-- The parser does not look at positions. -/
theorem pFile_bare (n : Nat) (ts : List PTok) :
    pFile n (bares ts) = (pFile n ts).map FileAst.bare := by
  rw [pFile, pFile, pProtocol_bare]
  cases pProtocol n ts with
  | some r =>
    obtain ⟨p, ts⟩ := r
    cases ts <;> rfl
  | none =>
    simp only [Option.map_none]
    rw [pNamespace_bare]
    refine bind_on fun ns ts => ?_
    dsimp only
    rw [pMain_bare]
    refine bind_on fun main ts => ?_
    dsimp only
    rw [pAll_bare (pFileItem_bare n)]
    cases pAll (pFileItem n) n ts <;> rfl

end BareParse

end Avdl

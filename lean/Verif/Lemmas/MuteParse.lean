import Verif.Lemmas.ParserSound
/-!
# Positions of tokens and the parser

Trees and tokens without source positions and token numbers: the parser does not look at either.
Compare `Verif/Lemmas/BareParse.lean`, where the numbers are kept.
-/

namespace Avdl

/-- A token without its position in the text. -/
def PTok.mute (t : PTok) : PTok := { t with span := none, index := 0 }

mutual
/-- A JSON value without source positions and token numbers. -/
def JVal.mute : JVal → JVal
  | .null => .null
  | .true => .true
  | .false => .false
  | .str raw => .str raw
  | .int text _ => .int text none
  | .float text _ => .float text none
  | .arr l => .arr (muteVals l)
  | .obj m => .obj (mutePairs m)
/-- JSON values without source positions and token numbers. -/
def muteVals : List JVal → List JVal
  | [] => []
  | v :: vs => v.mute :: muteVals vs
/-- The entries of a JSON object without source positions and token numbers. -/
def mutePairs : List (String × JVal) → List (String × JVal)
  | [] => []
  | (k, v) :: ps => (k, v.mute) :: mutePairs ps
end

/-- An entry of a JSON object without source positions and token numbers. -/
def mutePair (p : String × JVal) : String × JVal := (p.1, p.2.mute)

theorem muteVals_map (vs : List JVal) : muteVals vs = vs.map JVal.mute := by
  induction vs with
  | nil => rfl
  | cons v vs ih => rw [muteVals, ih]; rfl

theorem mutePairs_map (ps : List (String × JVal)) : mutePairs ps = ps.map mutePair := by
  induction ps with
  | nil => rfl
  | cons p ps ih => obtain ⟨k, v⟩ := p; rw [mutePairs, ih]; rfl

/-- An annotation without source positions and token numbers. -/
def Annot.mute (a : Annot) : Annot := ⟨a.name, a.value.mute, none⟩

/-- A name without its source position. -/
def muteName (e : String × Option Span) : String × Option Span := (e.1, none)

/-- A primitive type without source positions and token numbers. -/
def PrimTok.mute : PrimTok → PrimTok
  | .decimal p _ s => .decimal p none (s.map muteName)
  | p => p

mutual
/-- A type without source positions and token numbers. -/
def PlainType.mute : PlainType → PlainType
  | .array t => .array t.mute
  | .map t => .map t.mute
  | .union ts => .union (muteFullTypes ts)
  | .prim p b _ => .prim p.mute b none
  | .named i _ b => .named i none b
/-- A type without source positions and token numbers. -/
def FullType.mute : FullType → FullType
  | .mk as t _ => .mk (as.map Annot.mute) t.mute none
/-- Types without source positions and token numbers. -/
def muteFullTypes : List FullType → List FullType
  | [] => []
  | t :: ts => t.mute :: muteFullTypes ts
end

theorem muteFullTypes_map (ts : List FullType) : muteFullTypes ts = ts.map FullType.mute := by
  induction ts with
  | nil => rfl
  | cons t ts ih => rw [muteFullTypes, ih]; rfl

/-- A variable without source positions and token numbers. -/
def VarDecl.mute (v : VarDecl) : VarDecl := 
  { start := 0, annots := v.annots.map Annot.mute, ident := v.ident,
    default := v.default.map JVal.mute, valueSpan := none, identSpan := none, defaultSpan := none }

/-- A field without source positions and token numbers. -/
def FieldDecl.mute (d : FieldDecl) : FieldDecl :=
  ⟨0, d.type.mute, d.vars.map VarDecl.mute⟩

/-- A record without source positions and token numbers. -/
def RecordDecl.mute (d : RecordDecl) : RecordDecl :=
  { d with start := 0, annots := d.annots.map Annot.mute, fields := d.fields.map FieldDecl.mute,
           identSpan := none }

/-- An enum without source positions and token numbers. -/
def EnumDecl.mute (d : EnumDecl) : EnumDecl :=
  { d with start := 0, annots := d.annots.map Annot.mute, symbols := d.symbols.map muteName,
           default := d.default.map muteName, identSpan := none }

/-- A fixed without source positions and token numbers. -/
def FixedDecl.mute (d : FixedDecl) : FixedDecl :=
  { d with start := 0, annots := d.annots.map Annot.mute, identSpan := none, sizeSpan := none }

/-- A named type without source positions and token numbers. -/
def NamedDecl.mute : NamedDecl → NamedDecl
  | .record d => .record d.mute
  | .enum d => .enum d.mute
  | .fixed d => .fixed d.mute

/-- An import without source positions and token numbers. -/
def ImportStmt.mute (i : ImportStmt) : ImportStmt := { i with span := none }

/-- A parameter without source positions and token numbers. -/
def Param.mute (p : Param) : Param := ⟨0, p.type.mute, p.var.mute, none⟩

/-- A message without source positions and token numbers. -/
def MessageDecl.mute (m : MessageDecl) : MessageDecl :=
  { m with start := 0, annots := m.annots.map Annot.mute, result := m.result.map PlainType.mute,
           params := m.params.map Param.mute, errors := m.errors.map muteName, span := none }

/-- A child of a protocol without source positions and token numbers. -/
def BodyItem.mute : BodyItem → BodyItem
  | .import_ i => .import_ i.mute
  | .named d _ => .named d.mute none
  | .message m => .message m.mute

/-- A child of a schema file without source positions and token numbers. -/
def FileItem.mute : FileItem → FileItem
  | .import_ i => .import_ i.mute
  | .named d _ => .named d.mute none

/-- A protocol without source positions and token numbers. -/
def ProtocolDecl.mute (d : ProtocolDecl) : ProtocolDecl :=
  { d with start := 0, annots := d.annots.map Annot.mute, body := d.body.map BodyItem.mute, identSpan := none }

/-- A file without source positions and token numbers. -/
def FileAst.mute : FileAst → FileAst
  | .protocol d => .protocol d.mute
  | .schema ns main body => .schema ns (main.map FullType.mute) (body.map FileItem.mute)

namespace MuteParse

/-- Tokens without their positions. -/
abbrev mutes (ts : List PTok) : List PTok := ts.map PTok.mute

/-- The result of a parser without positions. -/
def on {α β : Type} (g : α → β) (r : α × List PTok) : β × List PTok := (g r.1, mutes r.2)

/-- A parser that does not look at positions. -/
def Blind {α : Type} (p : P α) (g : α → α) : Prop := ∀ ts, p (mutes ts) = (p ts).map (on g)

theorem bind_on {α γ : Type} {m : Option (α × List PTok)} {g : α → α}
    {k k' : α × List PTok → Option γ} {f : γ → γ}
    (e : ∀ a ts, (k' (g a, mutes ts)) = (k (a, ts)).map f) :
    (m.map (on g) >>= k') = (m >>= k).map f := by
  cases m with
  | none => rfl
  | some r => exact e r.1 r.2

theorem pTok_mute (k : Kind) : Blind (pTok k) PTok.mute := by
  intro ts
  cases ts with
  | nil => rfl
  | cons t ts =>
    show (if t.kind = k then _ else _) = Option.map _ (if t.kind = k then _ else _)
    split <;> rfl

theorem pIdent_mute : Blind pIdent PTok.mute := by
  intro ts
  cases ts with
  | nil => rfl
  | cons t ts =>
    show (if t.kind.isIdent then _ else _) = Option.map _ (if t.kind.isIdent then _ else _)
    split <;> rfl

theorem mutes_cons (t : PTok) (ts : List PTok) : mutes (t :: ts) = t.mute :: mutes ts := rfl

theorem nextIs_mute (k : Kind) (ts : List PTok) : nextIs k (mutes ts) = nextIs k ts := by
  cases ts <;> rfl

theorem tail_mute (ts : List PTok) : (mutes ts).tail = mutes ts.tail := by
  cases ts <;> rfl

theorem firstIndex_mute (ts : List PTok) : firstIndex (mutes ts) = 0 := by
  cases ts <;> rfl

theorem firstSpan_mute (ts : List PTok) : firstSpan (mutes ts) = none := by
  cases ts <;> rfl

theorem nodeSpan_mute (ts : List PTok) : nodeSpan (mutes ts) = none := by
  cases ts <;> rfl

theorem spanBetween_mute (ts ts' : List PTok) : spanBetween (mutes ts) (mutes ts') = none := by
  unfold spanBetween
  rw [← List.map_take]
  exact nodeSpan_mute _

theorem pCommas_mute {α : Type} {one : P α} {g : α → α} (h : Blind one g) (close : Kind) (n : Nat) :
    Blind (pCommas one close n) (List.map g) := by
  induction n with
  | zero => intro ts; rfl
  | succ n ih =>
    intro ts
    rw [pCommas, pCommas, h ts]
    refine bind_on fun a ts => ?_
    dsimp only
    rw [nextIs_mute, tail_mute]
    split
    · rw [ih]
      exact bind_on fun as ts => rfl
    · rw [pTok_mute]
      exact bind_on fun as ts => rfl

theorem pCommasOpt_mute {α : Type} {one : P α} {g : α → α} (h : Blind one g) (close : Kind)
    (n : Nat) : Blind (pCommasOpt one close n) (List.map g) := by
  intro ts
  rw [pCommasOpt, pCommasOpt, nextIs_mute, tail_mute]
  split
  · rfl
  · exact pCommas_mute h close n ts

theorem pUntil_mute {α : Type} {one : P α} {g : α → α} (h : Blind one g) (close : Kind) (n : Nat) :
    Blind (pUntil one close n) (List.map g) := by
  induction n with
  | zero => intro ts; rfl
  | succ n ih =>
    intro ts
    rw [pUntil, pUntil, nextIs_mute, tail_mute]
    split
    · rfl
    · rw [h ts]
      refine bind_on fun a ts => ?_
      dsimp only
      rw [ih]
      exact bind_on fun as ts => rfl

theorem pPair_mute {value : P JVal} (h : Blind value JVal.mute) : Blind (pPair value) mutePair := by
  intro ts
  rw [pPair, pPair, pTok_mute]
  refine bind_on fun k ts => ?_
  dsimp only
  rw [pTok_mute]
  refine bind_on fun c ts => ?_
  dsimp only
  rw [h ts]
  exact bind_on fun v ts => rfl

theorem map_on {α β : Type} {g : α → α} {c : α → β} {d : β → β} (hc : ∀ a, c (g a) = d (c a))
    (m : Option (α × List PTok)) :
    (m.map (on g)).map (fun r => (c r.1, r.2)) = (m.map fun r => (c r.1, r.2)).map (on d) := by
  cases m with
  | none => rfl
  | some r =>
    show some (c (g r.1), _) = some (d (c r.1), _)
    rw [hc]
    rfl

theorem jsonLiteral_mute (t : PTok) : jsonLiteral t.mute = (jsonLiteral t).map JVal.mute := by
  unfold jsonLiteral
  show (if t.kind = _ then _ else if t.kind = _ then _ else if t.kind = _ then _ else
    if t.kind = _ then _ else if t.kind = _ then _ else if t.kind = _ then _ else _) = _
  repeat' first | rfl | split

theorem pJson_mute (n : Nat) : Blind (pJson n) JVal.mute := by
  induction n with
  | zero => intro ts; rfl
  | succ n ih =>
    intro ts
    cases ts with
    | nil => rfl
    | cons t ts =>
      show pJson (n + 1) (t.mute :: mutes ts) = _
      rw [pJson, pJson]
      show (if t.kind = _ then _ else if t.kind = _ then _ else _) = _
      split
      · rw [pCommasOpt_mute (pPair_mute ih)]
        exact map_on (c := JVal.obj) (d := JVal.mute)
          (fun ps => by rw [JVal.mute, mutePairs_map]) _
      · split
        · rw [pCommasOpt_mute ih]
          exact map_on (c := JVal.arr) (d := JVal.mute)
            (fun vs => by rw [JVal.mute, muteVals_map]) _
        · rw [jsonLiteral_mute]
          cases jsonLiteral t <;> rfl

theorem pAnnot_mute (n : Nat) : Blind (pAnnot n) Annot.mute := by
  intro ts0
  rw [pAnnot, pAnnot, pTok_mute]
  refine bind_on fun _ ts => ?_
  dsimp only
  rw [pIdent_mute]
  refine bind_on fun name ts => ?_
  dsimp only
  rw [pTok_mute]
  refine bind_on fun _ ts => ?_
  dsimp only
  rw [pJson_mute]
  refine bind_on fun v ts => ?_
  dsimp only
  rw [pTok_mute]
  refine bind_on fun _ ts => ?_
  dsimp only
  rw [spanBetween_mute]
  rfl

theorem pAnnots_mute (n : Nat) : Blind (pAnnots n) (List.map Annot.mute) := by
  induction n with
  | zero => intro ts; rfl
  | succ n ih =>
    intro ts
    rw [pAnnots, pAnnots, nextIs_mute]
    split
    · rw [pAnnot_mute]
      refine bind_on fun a ts => ?_
      dsimp only
      rw [ih]
      exact bind_on fun as ts => rfl
    · rfl

theorem pOptional_mute (ts : List PTok) :
    pOptional (mutes ts) = ((pOptional ts).1, mutes (pOptional ts).2) := by
  rw [pOptional, pOptional, nextIs_mute, tail_mute]
  split <;> rfl

theorem pDecimal_mute : Blind pDecimal PrimTok.mute := by
  intro ts
  rw [pDecimal, pDecimal, pTok_mute]
  refine bind_on fun p ts => ?_
  dsimp only
  rw [nextIs_mute, tail_mute]
  split
  · rw [pTok_mute]
    refine bind_on fun s ts => ?_
    dsimp only
    rw [pTok_mute]
    exact bind_on fun _ ts => rfl
  · rw [pTok_mute]
    exact bind_on fun _ ts => rfl

theorem simplePrim_mute {k : Kind} {p : PrimTok} (h : simplePrim k = some p) : p.mute = p := by
  obtain ⟨_, _, h⟩ := simplePrim_some.mp h
  cases h <;> rfl

theorem pTypes_mute (n : Nat) : Blind (pFull n) FullType.mute ∧ Blind (pPlain n) PlainType.mute := by
  induction n with
  | zero => exact ⟨fun ts => rfl, fun ts => rfl⟩
  | succ n ih =>
    obtain ⟨ihF, ihP⟩ := ih
    constructor
    · intro ts
      rw [pFull, pFull, pAnnots_mute]
      refine bind_on fun as ts1 => ?_
      dsimp only
      rw [ihP]
      refine bind_on fun t ts2 => ?_
      dsimp only
      rw [spanBetween_mute]
      rfl
    · intro ts
      cases ts with
      | nil => rfl
      | cons t ts =>
        show pPlain (n + 1) (t.mute :: mutes ts) = _
        rw [pPlain, pPlain]
        rw [← mutes_cons]
        simp only [nextIs_mute, tail_mute, pOptional_mute, spanBetween_mute]
        have hk : t.mute.kind = t.kind := rfl
        simp only [hk]
        split
        · rw [ihF]
          refine bind_on fun f ts => ?_
          dsimp only
          rw [pTok_mute]
          exact bind_on fun _ ts => rfl
        split
        · rw [ihF]
          refine bind_on fun f ts => ?_
          dsimp only
          rw [pTok_mute]
          exact bind_on fun _ ts => rfl
        split
        · rw [pCommas_mute ihF]
          exact map_on (c := PlainType.union) (d := PlainType.mute)
            (fun fs => by rw [PlainType.mute, muteFullTypes_map]) _
        split
        · rw [pDecimal_mute]
          refine bind_on fun p ts1 => ?_
          dsimp only
          rw [pOptional_mute, spanBetween_mute]
          rfl
        cases hp : simplePrim t.kind with
        | some p =>
          have hb := simplePrim_mute hp
          dsimp only
          rw [Option.map_some, on, PlainType.mute, hb]
        | none =>
          dsimp only
          split <;> rfl

theorem pVar_mute (n : Nat) : Blind (pVar n) VarDecl.mute := by
  intro ts0
  rw [pVar, pVar, pAnnots_mute]
  refine bind_on fun as ts => ?_
  dsimp only
  rw [pIdent_mute]
  refine bind_on fun name ts => ?_
  dsimp only
  rw [nextIs_mute, tail_mute, firstIndex_mute, firstSpan_mute, firstSpan_mute]
  split
  · rw [pJson_mute]
    refine bind_on fun v ts => ?_
    dsimp only
    rw [spanBetween_mute]
    rfl
  · rfl

theorem pField_mute (n : Nat) : Blind (pField n) FieldDecl.mute := by
  intro ts0
  rw [pField, pField, (pTypes_mute n).1]
  refine bind_on fun t ts => ?_
  dsimp only
  rw [pCommas_mute (pVar_mute n), firstIndex_mute]
  exact bind_on fun vs ts => rfl

theorem pSymbol_mute (n : Nat) : Blind (pSymbol n) muteName := by
  intro ts0
  rw [pSymbol, pSymbol, pAnnots_mute]
  refine bind_on fun _ ts => ?_
  dsimp only
  rw [pIdent_mute]
  refine bind_on fun name ts => ?_
  dsimp only
  rw [spanBetween_mute]
  rfl

theorem pEnumDefault_mute : Blind pEnumDefault (Option.map muteName) := by
  intro ts
  rw [pEnumDefault, pEnumDefault, nextIs_mute, tail_mute]
  split
  · rw [pIdent_mute]
    refine bind_on fun d ts => ?_
    dsimp only
    rw [pTok_mute]
    exact bind_on fun _ ts => rfl
  · rfl

/-- A declaration and its position, without positions. -/
def muteNamed (d : NamedDecl × Option Span) : NamedDecl × Option Span := (d.1.mute, none)

theorem pNamed_mute (n : Nat) : Blind (pNamed n) muteNamed := by
  intro ts0
  rw [pNamed, pNamed, pAnnots_mute]
  refine bind_on fun as ts => ?_
  cases ts with
  | nil => rfl
  | cons k ts =>
    rw [mutes_cons]
    dsimp only
    rw [pIdent_mute]
    refine bind_on fun name ts => ?_
    dsimp only
    have hk : k.mute.kind = k.kind := rfl
    rw [firstIndex_mute, firstSpan_mute, hk]
    split
    · rw [pTok_mute]
      refine bind_on fun _ ts => ?_
      dsimp only
      rw [pTok_mute]
      refine bind_on fun size ts => ?_
      dsimp only
      rw [pTok_mute]
      refine bind_on fun _ ts => ?_
      dsimp only
      rw [pTok_mute]
      exact bind_on fun _ ts => rfl
    split
    · rw [pTok_mute]
      refine bind_on fun _ ts => ?_
      dsimp only
      rw [pCommasOpt_mute (pSymbol_mute n)]
      refine bind_on fun syms ts => ?_
      dsimp only
      rw [pEnumDefault_mute]
      exact bind_on fun d ts => rfl
    split
    · rw [pTok_mute]
      refine bind_on fun _ ts => ?_
      dsimp only
      rw [pUntil_mute (pField_mute n)]
      exact bind_on fun fs ts => rfl
    · rfl

theorem pImport_mute : Blind pImport ImportStmt.mute := by
  intro ts0
  rw [pImport, pImport, pTok_mute]
  refine bind_on fun _ ts => ?_
  cases ts with
  | nil => rfl
  | cons k ts =>
    rw [mutes_cons]
    dsimp only
    have hk : k.mute.kind = k.kind := rfl
    rw [hk]
    cases importKind k.kind with
    | none => rfl
    | some kind =>
      show (pTok _ _ >>= _) = Option.map _ (pTok _ _ >>= _)
      rw [pTok_mute]
      refine bind_on fun loc ts => ?_
      dsimp only
      rw [pTok_mute, firstSpan_mute]
      exact bind_on fun _ ts => rfl

theorem pParam_mute (n : Nat) : Blind (pParam n) Param.mute := by
  intro ts0
  rw [pParam, pParam, (pTypes_mute n).1]
  refine bind_on fun t ts => ?_
  dsimp only
  rw [pVar_mute, firstIndex_mute]
  refine bind_on fun v ts => ?_
  dsimp only
  rw [spanBetween_mute]
  rfl

theorem pResult_mute (n : Nat) : Blind (pResult n) (Option.map PlainType.mute) := by
  intro ts
  rw [pResult, pResult, nextIs_mute, tail_mute, nextIs_mute]
  split
  · rfl
  · rw [(pTypes_mute n).2]
    exact map_on (c := some) (d := Option.map PlainType.mute) (fun _ => rfl) _

theorem pName_mute : Blind pName muteName := by
  intro ts
  rw [pName, pName, pIdent_mute]
  cases pIdent ts <;> rfl

/-- The end of a message without positions. -/
def muteEnd (e : Bool × List (String × Option Span)) : Bool × List (String × Option Span) :=
  (e.1, e.2.map muteName)

theorem pMessageEnd_mute (n : Nat) : Blind (pMessageEnd n) muteEnd := by
  intro ts
  rw [pMessageEnd, pMessageEnd, nextIs_mute, nextIs_mute, tail_mute]
  split
  · rw [pTok_mute]
    cases pTok (.sym ';') ts.tail <;> rfl
  split
  · rw [pCommas_mute pName_mute]
    exact map_on (c := fun es => (false, es)) (d := muteEnd) (fun _ => rfl) _
  · rw [pTok_mute]
    cases pTok (.sym ';') ts <;> rfl

theorem pMessage_mute (n : Nat) : Blind (pMessage n) MessageDecl.mute := by
  intro ts0
  rw [pMessage, pMessage, pAnnots_mute]
  refine bind_on fun as ts => ?_
  dsimp only
  rw [pResult_mute]
  refine bind_on fun res ts => ?_
  dsimp only
  rw [pIdent_mute]
  refine bind_on fun name ts => ?_
  dsimp only
  rw [pTok_mute]
  refine bind_on fun _ ts => ?_
  dsimp only
  rw [pCommasOpt_mute (pParam_mute n)]
  refine bind_on fun ps ts => ?_
  dsimp only
  rw [pMessageEnd_mute, firstIndex_mute]
  refine bind_on fun e ts => ?_
  dsimp only
  rw [spanBetween_mute]
  rfl

theorem pBodyItem_mute (n : Nat) : Blind (pBodyItem n) BodyItem.mute := by
  intro ts
  rw [pBodyItem, pBodyItem, pImport_mute]
  cases pImport ts with
  | some r => rfl
  | none =>
    simp only [Option.map_none]
    rw [pNamed_mute]
    cases pNamed n ts with
    | some r => rfl
    | none =>
      simp only [Option.map_none]
      rw [pMessage_mute]
      exact map_on (c := BodyItem.message) (d := BodyItem.mute) (fun _ => rfl) _

theorem pFileItem_mute (n : Nat) : Blind (pFileItem n) FileItem.mute := by
  intro ts
  rw [pFileItem, pFileItem, pImport_mute]
  cases pImport ts with
  | some r => rfl
  | none =>
    simp only [Option.map_none]
    rw [pNamed_mute]
    exact map_on (c := fun d : NamedDecl × Option Span => FileItem.named d.1 d.2)
      (d := FileItem.mute) (fun _ => rfl) _

theorem pProtocol_mute (n : Nat) : Blind (pProtocol n) ProtocolDecl.mute := by
  intro ts0
  rw [pProtocol, pProtocol, pAnnots_mute]
  refine bind_on fun as ts => ?_
  dsimp only
  rw [pTok_mute]
  refine bind_on fun _ ts => ?_
  dsimp only
  rw [pIdent_mute]
  refine bind_on fun name ts => ?_
  dsimp only
  rw [pTok_mute]
  refine bind_on fun _ ts => ?_
  dsimp only
  rw [pUntil_mute (pBodyItem_mute n), firstIndex_mute]
  exact bind_on fun body ts => rfl

theorem pNamespace_mute : Blind pNamespace id := by
  intro ts
  rw [pNamespace, pNamespace, nextIs_mute, tail_mute]
  split
  · rw [pIdent_mute]
    refine bind_on fun name ts => ?_
    dsimp only
    rw [pTok_mute]
    exact bind_on fun _ ts => rfl
  · rfl

theorem pMain_mute (n : Nat) : Blind (pMain n) (Option.map FullType.mute) := by
  intro ts
  rw [pMain, pMain, nextIs_mute, tail_mute]
  split
  · rw [(pTypes_mute n).1]
    refine bind_on fun t ts => ?_
    dsimp only
    rw [pTok_mute]
    exact bind_on fun _ ts => rfl
  · rfl

theorem pAll_mute {α : Type} {one : P α} {g : α → α} (h : Blind one g) (n : Nat) (ts : List PTok) :
    pAll one n (mutes ts) = (pAll one n ts).map (List.map g) := by
  induction n generalizing ts with
  | zero => rfl
  | succ n ih =>
    cases ts with
    | nil => rfl
    | cons t ts =>
      show pAll one (n + 1) (t.mute :: mutes ts) = _
      rw [pAll, pAll]
      rw [← mutes_cons, h (t :: ts)]
      refine bind_on fun a ts => ?_
      dsimp only
      rw [ih]
      cases pAll one n ts <;> rfl

/-- The parser does not look at positions. -/
theorem pFile_mute (n : Nat) (ts : List PTok) :
    pFile n (mutes ts) = (pFile n ts).map FileAst.mute := by
  rw [pFile, pFile, pProtocol_mute]
  cases pProtocol n ts with
  | some r =>
    obtain ⟨p, ts⟩ := r
    cases ts <;> rfl
  | none =>
    simp only [Option.map_none]
    rw [pNamespace_mute]
    refine bind_on fun ns ts => ?_
    dsimp only
    rw [pMain_mute]
    refine bind_on fun main ts => ?_
    dsimp only
    rw [pAll_mute (pFileItem_mute n)]
    cases pAll (pFileItem n) n ts <;> rfl

end MuteParse

end Avdl

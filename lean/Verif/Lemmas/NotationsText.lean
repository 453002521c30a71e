import Verif.Lemmas.MuteCompile
import Verif.Lemmas.NotationsRead
/-!
# Texts in different notations
-/

namespace Avdl.Notations
open Spec Spec.Notations Spec.Lexing MuteReader MuteParse Blank MuteCompile W

/-! ## Positions -/

mutual
theorem spelling_mute : (v : JVal) → spelling v.mute = spelling v
  | .null | .true | .false | .str _ | .int _ _ | .float _ _ => rfl
  | .arr l => by rw [JVal.mute, spelling, spelling, spellings_mute l]
  | .obj m => by rw [JVal.mute, spelling, spelling, spellingPairs_mute m]
theorem spellings_mute : (l : List JVal) → spellings (muteVals l) = spellings l
  | [] => rfl
  | v :: vs => by rw [muteVals, spellings, spellings, spelling_mute v, spellings_mute vs]
theorem spellingPairs_mute : (m : List (String × JVal)) → spellingPairs (mutePairs m) = spellingPairs m
  | [] => rfl
  | (k, v) :: ps => by
      rw [mutePairs, spellingPairs, spellingPairs, spelling_mute v, spellingPairs_mute ps]
end

theorem forall₂_mute {α : Type} {R : α → α → Prop} {f : α → α} (h : ∀ a, R a (f a)) (l : List α) :
    List.Forall₂ R l (l.map f) := by
  induction l with
  | nil => exact .nil
  | cons a l ih => exact .cons (h a) ih

section
variable [FloatTables]

theorem sameValue_mute (v : JVal) : SameValue v v.mute := .inl (spelling_mute v).symm

theorem sameAnnots_mute (as : List Annot) : SameAnnots as (as.map Annot.mute) :=
  forall₂_mute (fun a => ⟨rfl, sameValue_mute a.value⟩) as

theorem sameKeyword_mute (p : PrimTok) : SameKeyword p p.mute := by
  cases p with
  | decimal p sp s =>
    cases s with
    | none => exact .integer (.inl rfl)
    | some s => exact .decimal (.inl rfl) (.inl rfl)
  | _ => exact .same

mutual
theorem sameType_mute (pl : Place) : (t : FullType) → SameType pl t t.mute
  | .mk as t sp => by
      rw [FullType.mute]
      exact .annotated (sameAnnots_mute as) (samePlain_mute .exact t)
theorem samePlain_mute (pl : Place) : (t : PlainType) → SamePlain pl t t.mute
  | .array t => by rw [PlainType.mute]; exact .array (sameType_mute .nullFirst t)
  | .map t => by rw [PlainType.mute]; exact .map (sameType_mute .nullFirst t)
  | .union ts => by rw [PlainType.mute]; exact .union (sameTypes_mute ts)
  | .prim p _ _ => by rw [PlainType.mute]; exact .prim (sameKeyword_mute p)
  | .named _ _ _ => by rw [PlainType.mute]; exact .named rfl
theorem sameTypes_mute : (ts : List FullType) → SameTypes ts (muteFullTypes ts)
  | [] => .nil
  | t :: ts => by rw [muteFullTypes]; exact .cons (sameType_mute .nullFirst t) (sameTypes_mute ts)
end

theorem sameVar_mute (v : VarDecl) : SameVar v v.mute where
  annots := sameAnnots_mute _
  name := rfl
  default := by
    show SameDefault v.default (v.default.map JVal.mute)
    cases v.default with
    | none => exact .none
    | some d => exact .some (sameValue_mute d)

theorem sameField_mute (d : FieldDecl) : SameField d d.mute :=
  ⟨⟨.exact, .inl rfl, sameType_mute .exact d.type⟩, forall₂_mute sameVar_mute d.vars⟩

omit [FloatTables] in
theorem sameNames_mute (ns : List (String × Option Span)) : SameNames ns (ns.map muteName) :=
  forall₂_mute (R := fun a b : String × Option Span => SameName a.1 b.1) (f := muteName)
    (fun _ => Eq.refl _) ns

theorem sameNamed_mute (d : NamedDecl) : SameNamed d d.mute := by
  cases d with
  | record d =>
    exact .record (.same (sameAnnots_mute _) rfl) rfl (.each (forall₂_mute sameField_mute d.fields))
  | enum d =>
    refine .enum (.same (sameAnnots_mute _) rfl) (sameNames_mute _) ?_
    show SameNames d.default.toList (d.default.map muteName).toList
    cases d.default with
    | none => exact .nil
    | some x => exact .cons rfl .nil
  | fixed d => exact .fixed (.same (sameAnnots_mute _) rfl) (.inl rfl)

theorem sameParam_mute (p : Param) : SameParam p p.mute :=
  ⟨⟨.exact, .inl rfl, sameType_mute .exact p.type⟩, sameVar_mute p.var⟩

theorem sameMessage_mute (m : MessageDecl) : SameMessage m m.mute where
  annots := sameAnnots_mute _
  result := by
    show SameResult m.annots m.result (m.result.map PlainType.mute)
    cases m.result with
    | none => exact .void
    | some t => exact .type (.inl rfl) (samePlain_mute .exact t)
  name := rfl
  params := forall₂_mute sameParam_mute m.params
  oneway := rfl
  errors := sameNames_mute _

theorem sameTree_mute (ast : FileAst) : SameTree ast ast.mute := by
  cases ast with
  | protocol d =>
    refine .protocol (.same (sameAnnots_mute _) rfl) (forall₂_mute (fun i => ?_) d.body)
    cases i with
    | import_ i => exact .import_ ⟨rfl, .inl rfl⟩
    | named d sp => exact .named (sameNamed_mute d)
    | message m => exact .message (sameMessage_mute m)
  | schema ns main body =>
    refine .schema rfl ?_ (forall₂_mute (fun i => ?_) body)
    · cases main with
      | none => exact .none
      | some t => exact .some (sameType_mute .nullFirst t)
    · cases i with
      | import_ i => exact .import_ ⟨rfl, .inl rfl⟩
      | named d sp => exact .named (sameNamed_mute d)

/-- Texts are compared by their parse trees without positions, whatever the name of the file. -/
theorem sameText_of_trees {text text' file file' : String} {s s' : Source}
    (h : parseSource file text = some s) (h' : parseSource file' text' = some s')
    (ha : Equivalent s.ast.mute s'.ast.mute)
    (hl : s.lexerErrors.map LexError.text = s'.lexerErrors.map LexError.text) :
    Spec.Notations.SameText text text' := by
  have key : ∀ {text file : String} {s : Source}, parseSource file text = some s → ∀ g, ∃ r,
      parseSource g text = some r ∧ r.ast.mute = s.ast.mute ∧
      r.lexerErrors.map LexError.text = s.lexerErrors.map LexError.text := by
    intro text file s h g
    have hp := parseSource_same (file := g) (file' := file)
      (⟨_, _, lex_iff.mpr rfl, lex_iff.mpr rfl, rfl, rfl⟩ : Spec.Redocument.SameCode text text)
    rw [h] at hp
    cases hr : parseSource g text with
    | none => rw [hr] at hp; cases hp
    | some r =>
      rw [hr] at hp
      injection hp with hp
      refine ⟨r, rfl, (congrArg Source.ast hp : (muteSource r).ast = (muteSource s).ast), ?_⟩
      have := congrArg (fun x : Source => x.lexerErrors.map LexError.text) hp
      unfold muteSource at this
      dsimp only at this
      rwa [List.map_map, List.map_map] at this
  right
  intro g
  obtain ⟨r, h1, h2, h3⟩ := key h g
  obtain ⟨r', h1', h2', h3'⟩ := key h' g
  refine ⟨r, r', h1, h1', ?_, by rw [h3, h3', hl]⟩
  refine .trans _ _ _ (.rel _ _ (.inl (sameTree_mute r.ast))) ?_
  rw [h2]
  refine .trans _ _ _ ha ?_
  rw [← h2']
  exact .symm _ _ (.rel _ _ (.inl (sameTree_mute r'.ast)))

end

/-! ## Texts -/

section
variable [CharTables] [FloatTables] [CaseTables]

theorem sameText_read {text text' : String} (h : Spec.Notations.SameText text text') :
    AlikeText text text' := by
  intro w w' hw hw' name
  unfold parseIdl
  rw [hw, hw']
  rcases h with rfl | h
  · rfl
  obtain ⟨s, s', h1, h2, ha, hl⟩ := h name
  rw [h1, h2]
  dsimp only
  have he : ∀ s : Source, muteWarnings (s.lexerErrors.map Warning.lexer) =
      (s.lexerErrors.map LexError.text).map fun t => .lexer ⟨t, 0, 0, ⟨0, 0, ""⟩⟩ := by
    intro s
    unfold muteWarnings
    rw [List.filter_eq_self.mpr (by intro x hx; obtain ⟨e, _, rfl⟩ := List.mem_map.mp hx; rfl),
      List.map_map, List.map_map]
    rfl
  have e5 : ∀ ws : List WalkWarning,
      muteWarnings (ws.map Warning.walk) = (ws.map WalkWarning.mute).map .walk := by
    intro ws
    unfold muteWarnings
    rw [List.filter_eq_self.mpr (by
      intro x hx; obtain ⟨e, _, rfl⟩ := List.mem_map.mp hx; rfl), List.map_map, List.map_map]
    rfl
  have e6 : ∀ (ms : List Mark) (os : List Nat), muteWarnings (os.map (docWarning ms name)) = [] := by
    intro ms os
    unfold muteWarnings
    rw [List.filter_eq_nil_iff.mpr (by
      intro x hx; obtain ⟨e, _, rfl⟩ := List.mem_map.mp hx; simp [docWarning, docsOnly])]
    rfl
  have hr := equivalent_read s.tokens s'.tokens ha { consumed := [], warnings := [] }
    { consumed := [], warnings := [] } rfl
  unfold readFile
  revert hr
  generalize walkFile s.tokens s.ast { consumed := [], warnings := [] } = x
  generalize walkFile s'.tokens s'.ast { consumed := [], warnings := [] } = y
  intro hr
  cases hr with
  | @error e e' h =>
    show Except.error (CompileErr.read name ⟨e.err, none⟩) = .error (.read name ⟨e'.err, none⟩)
    rw [h]
  | @ok a b h =>
    obtain ⟨⟨f, ds⟩, l⟩ := a
    obtain ⟨⟨f', ds'⟩, l'⟩ := b
    obtain ⟨⟨h3, h4⟩, h5⟩ := h
    dsimp only at h3 h4 h5
    have h6 : l.warnings.map WalkWarning.mute = l'.warnings.map WalkWarning.mute :=
      congrArg Log.warnings h5
    show Except.ok _ = Except.ok _
    unfold muteParsed
    dsimp only
    simp only [h3, h4, muteWarnings_append, e5, e6, he, hl, h6]

theorem sameFile_read {json : String → Option Json} {x y : Option String}
    (h : Spec.Notations.SameFile json x y) : AlikeFile json x y := by
  cases h with
  | unreadable => exact .unreadable
  | read ht hj => exact .read (sameText_read ht) hj

end

end Avdl.Notations

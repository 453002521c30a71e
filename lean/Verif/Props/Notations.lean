import Verif.Lemmas.NotationsText
import Verif.Props.Redocument
import Verif.Lemmas.Evaluate
/-!
# C71: different notations for the same

Files that say the same in different notations are compiled to the same documents, with the same
warnings, apart from documentation, or rejected for the same reason.
-/

namespace Avdl.Props
open Spec Spec.Notations MuteCompile Notations

section
variable [CharTables] [FloatTables] [CaseTables]

/-- **C71, files.**  Rewriting any of the files of a compilation in other notations changes only
documentation; a failure has the same reason. -/
theorem C71_same_document {w w' : World} (h : Rewritten w w') (b : Builder) (fuel : Nat)
    (path : Path) : Redocument.SameOutcome Redocument.SameDocument (b.convert w fuel path)
      (b.convert w' fuel path) := by
  rw [h.same]
  exact convert_alike h.parse (fun p => sameFile_read (h.files p)) b fuel path

/-- **C71, texts.**  The same for a text passed as a string. -/
theorem C71_same_document_str {w w' : World} (h : Rewritten w w') (b : Builder) (fuel : Nat)
    {text text' : String} (ht : Notations.SameText text text') (name : String) :
    Redocument.SameOutcome Redocument.SameDocument (b.convertStr w fuel text name)
      (b.convertStr w' fuel text' name) := by
  rw [h.same]
  exact convertStr_alike h.parse (fun p => sameFile_read (h.files p)) b fuel (sameText_read ht) name

/-- **C71, schemata.**  The same for the schemas extracted from a file or directory. -/
theorem C71_same_schemata {w w' : World} (h : Rewritten w w') (b : Builder) (fuel : Nat)
    (path : Path) : Redocument.SameOutcome Redocument.SameSchemata (b.extract w fuel path)
      (b.extract w' fuel path) := by
  rw [h.same]
  exact extract_alike h.parse (fun p => sameFile_read (h.files p)) b fuel path

/-- **C71, schemata of a text.** -/
theorem C71_same_schemata_str {w w' : World} (h : Rewritten w w') (b : Builder) (fuel : Nat)
    {text text' : String} (ht : Notations.SameText text text') (name : String) :
    Redocument.SameOutcome Redocument.SameSchemata (b.extractStr w fuel text name)
      (b.extractStr w' fuel text' name) := by
  rw [h.same]
  exact extractStr_alike h.parse (fun p => sameFile_read (h.files p)) b fuel (sameText_read ht) name

omit [CharTables] [CaseTables] in
/-- Texts without syntax errors that differ in layout and documentation say the same: C71 covers the
changes of C40 and C68. -/
theorem C71_covers_documentation {text text' file : String} {s s' : Source}
    (hc : Redocument.SameCode text text') (h : parseSource file text = some s)
    (h' : parseSource file text' = some s') : Notations.SameText text text' := by
  have hp := parseSource_same (file := file) (file' := file) hc
  rw [h, h'] at hp
  injection hp with hp
  have ha : s.ast.mute = s'.ast.mute :=
    (congrArg Source.ast hp : (muteSource s).ast = (muteSource s').ast)
  refine sameText_of_trees h h' (by rw [ha]; exact .refl _) ?_
  have := congrArg (fun x : Source => x.lexerErrors.map LexError.text) hp
  unfold muteSource at this
  dsimp only at this
  rwa [List.map_map, List.map_map] at this

end

/-! ## The hypotheses are met -/

section
attribute [local instance] asciiTables exFloats exCases

/-- A protocol. -/
def exBrief : String :=
  "@namespace(\"n\")protocol P{record R{date d;int? x;int? y=1;long a,b;}void f();}"

/-- The same protocol in other notations. -/
def exVerbose : String :=
  "protocol n.P{record R{@logicalType(\"date\")int d;union{null,int}x;union{int,null}y=0x1;long a;long b;}null f();}"

/-- A variable. -/
def exVar (i : String) (d : Option JVal) : VarDecl := ⟨0, [], i, d, none, none, none⟩

/-- A type without annotations. -/
def exType (p : PrimTok) (optional : Bool) : FullType := .mk [] (.prim p optional none) none

/-- A protocol with one record and one message. -/
def exProtocol (as : List Annot) (ident : String) (fields : List FieldDecl)
    (result : Option PlainType) : FileAst :=
  .protocol ⟨0, as, ident, [.named (.record ⟨0, [], false, "R", fields, none⟩) none,
    .message ⟨0, [], result, "f", [], false, [], none⟩], none⟩

/-- The last fields of `exBrief`. -/
def exTogether : List FieldDecl :=
  [⟨0, exType (.prim .long) false, [exVar "a" none] ++ [exVar "b" none]⟩]

/-- The last fields of `exVerbose`. -/
def exApart : List FieldDecl :=
  [⟨0, exType (.prim .long) false, [exVar "a" none]⟩, ⟨0, exType (.prim .long) false, [exVar "b" none]⟩]

/-- The other fields of `exBrief`. -/
def exBriefFields : List FieldDecl :=
  [⟨0, exType .date false, [exVar "d" none]⟩,
   ⟨0, exType (.prim .int) true, [exVar "x" none]⟩,
   ⟨0, exType (.prim .int) true, [exVar "y" (some (.int "1" none))]⟩]

/-- The other fields of `exVerbose`. -/
def exVerboseFields : List FieldDecl :=
  [⟨0, .mk [⟨"logicalType", .str "\"date\"", none⟩] (.prim (.prim .int) false none) none,
      [exVar "d" none]⟩,
   ⟨0, .mk [] (.union [exType (.prim .null) false, exType (.prim .int) false]) none, [exVar "x" none]⟩,
   ⟨0, .mk [] (.union [exType (.prim .int) false, exType (.prim .null) false]) none,
      [exVar "y" (some (.int "0x1" none))]⟩]

/-- The parse tree of `exBrief`. -/
def exBriefTree : FileAst :=
  exProtocol [⟨"namespace", .str "\"n\"", none⟩] "P" (exBriefFields ++ exTogether) none

/-- A parse tree between the two. -/
def exBetween : FileAst :=
  exProtocol [] "n.P" (exVerboseFields ++ exTogether) (some (.prim (.prim .null) false none))

/-- The parse tree of `exVerbose`. -/
def exVerboseTree : FileAst :=
  exProtocol [] "n.P" (exVerboseFields ++ exApart) (some (.prim (.prim .null) false none))

theorem exBrief_parsed : (parseSource "" exBrief).map (fun s => (s.ast.mute, s.lexerErrors)) =
    some (exBriefTree, []) := by evaluate

theorem exVerbose_parsed : (parseSource "" exVerbose).map (fun s => (s.ast.mute, s.lexerErrors)) =
    some (exVerboseTree, []) := by evaluate

theorem exOne : IntegerToken "1" .decimal false false 1 :=
  ⟨['1'], [], .decimal (by decide) (.cons (d := 1) (v := 0) (by unfold IsDigit; decide) .nil), rfl,
    by decide⟩

theorem exHexOne : IntegerToken "0x1" .hex false false 1 :=
  ⟨['0', 'x', '1'], [], .hex (.inl rfl) (by simp)
    (.cons (d := 1) (v := 0) (by unfold IsDigit; decide) .nil), rfl, by decide⟩

theorem exNotMin {text : String} {c : Char} {cs : List Char} (h : text.toList = c :: cs)
    (hc : c ≠ '-') (hc' : c ≠ '_') : ¬ MinNotDecimal text := by
  rintro ⟨n, long, _, body, suffix, _, _, e⟩
  rw [h, List.filter_cons_of_pos (by simpa using hc')] at e
  injection e with e
  exact hc e

theorem exSameOne : SameValue (.int "1" none) (.int "0x1" none) :=
  .inr ⟨_, .int exOne ⟨by decide, by decide⟩, .int exHexOne ⟨by decide, by decide⟩,
    .int (exNotMin (c := '1') (cs := []) rfl (by decide) (by decide)),
    .int (exNotMin (c := '0') (cs := ['x', '1']) rfl (by decide) (by decide))⟩

theorem exPlainString {e : List Char} (h : '\\' ∉ e) : Decodes e e := by
  induction e with
  | nil => exact .nil
  | cons c e ih =>
    exact .plain (fun hc => h (hc ▸ List.mem_cons_self)) (ih fun hm => h (List.mem_cons_of_mem _ hm))

theorem exSays {a : Annot} {k raw s : String} (h : a = ⟨k, .str raw, none⟩) (hk : plain k = k)
    (hr : raw.toList = '"' :: s.toList ++ ['"']) (hs : '\\' ∉ s.toList) : Says a k (.str s) := by
  subst h
  exact ⟨hk, .str ⟨_, hr, exPlainString hs⟩, .str⟩

theorem exBrief_between : SameTree exBriefTree exBetween := by
  refine .protocol (.dotted (x := []) (y := []) (exSays (s := "n") rfl (by decide) rfl (by decide))
    (fun _ h => nomatch h) (fun _ h => nomatch h) (by decide) (by decide))
    (.cons (.named (.record (.same .nil rfl) rfl (.each ?_))) (.cons (.message ?_) .nil))
  · refine .cons ⟨⟨.exact, .inl rfl, ?_⟩, sameVars_refl _⟩
      (.cons ⟨⟨.nullFirst, .inr ?_, ?_⟩, sameVars_refl _⟩
      (.cons ⟨⟨.nullLast, .inr ?_, ?_⟩, .cons ⟨.nil, rfl, .some exSameOne⟩ .nil⟩
      (.cons (sameField_refl _) .nil)))
    · exact .keyword (l := "date") (List.mem_cons_self) (exSays rfl (by decide) rfl (by decide))
        fun _ h => nomatch h
    · intro v hv
      rw [List.mem_singleton] at hv
      subst hv
      rfl
    · exact .plain (.optional (by decide) (fun h => nomatch h))
    · intro v hv
      rw [List.mem_singleton] at hv
      subst hv
      rfl
    · exact .plain (.optional (by decide) (fun h => nomatch h))
  · exact ⟨.nil, .null, rfl, .nil, rfl, .nil⟩

theorem exBetween_verbose : SameTree exBetween exVerboseTree :=
  .protocol (.same .nil rfl) (.cons (.named (.record (.same .nil rfl) rfl
    (.split ⟨rfl, trivial⟩ (by decide)))) (.cons (.message (sameMessage_refl _)) .nil))

theorem exSameText : Notations.SameText exBrief exVerbose := by
  have h := exBrief_parsed
  have h' := exVerbose_parsed
  cases hs : parseSource "" exBrief with
  | none => rw [hs] at h; cases h
  | some s =>
    cases hs' : parseSource "" exVerbose with
    | none => rw [hs'] at h'; cases h'
    | some s' =>
      rw [hs] at h
      rw [hs'] at h'
      injection h with h
      injection h' with h'
      injection h with h1 h2
      injection h' with h1' h2'
      refine sameText_of_trees hs hs' ?_ (by rw [h2, h2'])
      rw [h1, h1']
      exact .trans _ _ _ (.rel _ _ (.inl exBrief_between)) (.rel _ _ (.inl exBetween_verbose))

/-- One file. -/
def exBriefFile (p : Path) : Option String := if p = "a" then some exBrief else none

/-- The same file in other notations. -/
def exVerboseFile (p : Path) : Option String := if p = "a" then some exVerbose else none

theorem exRewritten : Rewritten (exLayoutWorld exBriefFile)
    { exLayoutWorld exBriefFile with read := exVerboseFile } where
  parse := rfl
  same := rfl
  files p := by
    show SameFile _ (if p = "a" then _ else _) (if p = "a" then _ else _)
    split
    · exact .read exSameText rfl
    · exact .unreadable

/-- Both compile, to the same document. -/
example : (exDocument exBriefFile).isSome = true := by decide +kernel
example : exDocument exVerboseFile = exDocument exBriefFile := by decide +kernel

/-- One file with this text. -/
def exOneFile (text : String) (p : Path) : Option String := if p = "a" then some text else none

/-- The order of the union that `int?` stands for depends on the default value. -/
example : exDocument (exOneFile "protocol P{record R{union{null,int}y=1;}}") ≠
    exDocument (exOneFile "protocol P{record R{int? y=1;}}") := by decide +kernel
example : exDocument (exOneFile "protocol P{record R{union{int,null}y=1;}}") =
    exDocument (exOneFile "protocol P{record R{int? y=1;}}") := by decide +kernel

end

end Avdl.Props

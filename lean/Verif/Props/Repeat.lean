import Verif.Props.Notations
/-!
# C73: importing a file again

An import of a path that the file has imported before, of whatever kind, changes nothing.
-/

namespace Avdl.Props
open Spec Spec.Notations Spec.Lexing MuteCompile Notations

section
variable [CharTables] [FloatTables] [CaseTables]

omit [CharTables] [CaseTables] in
theorem importsAgain_same {text text' : String} (h : ImportsAgain text text') :
    Notations.SameText text text' := by
  right
  intro file
  obtain ⟨s, s', t, t', h1, h2, h3, h4, h5, h6⟩ := h file
  exact ⟨s, s', h1, h2, .trans _ _ _ (.rel _ _ (.inl h3)) (.trans _ _ _ (.rel _ _ (.inr h4))
    (.symm _ _ (.rel _ _ (.inl h5)))), h6⟩

/-- A file system in which one file has another text. -/
def withText (w : World) (p : Path) (text : String) : World :=
  { w with read := fun q => if q = p then some text else w.read q }

omit [CharTables] [CaseTables] in
theorem importsAgain_rewritten {w : World} (hp : w.parse = parseSource) {p : Path}
    {text text' : String} (hr : w.read p = some text) (h : ImportsAgain text text')
    (hj : w.parseJson text = w.parseJson text') : Rewritten w (withText w p text') where
  parse := hp
  same := rfl
  files q := by
    show SameFile _ _ (if q = p then some text' else w.read q)
    split
    · next hq =>
      subst hq
      rw [hr]
      exact .read (importsAgain_same h) hj
    · cases w.read q with
      | none => exact .unreadable
      | some t => exact .read (.inl rfl) rfl

/-- **C73, files.**  If one of the files, the compiled one or one that is imported, imports something
again, then the document is the same apart from documentation, and a failure has the same reason. -/
theorem C73_same_document {w : World} (hp : w.parse = parseSource) {p : Path} {text text' : String}
    (hr : w.read p = some text) (h : ImportsAgain text text')
    (hj : w.parseJson text = w.parseJson text') (b : Builder) (fuel : Nat) (path : Path) :
    Redocument.SameOutcome Redocument.SameDocument (b.convert w fuel path)
      (b.convert (withText w p text') fuel path) :=
  C71_same_document (importsAgain_rewritten hp hr h hj) b fuel path

/-- **C73, texts.** -/
theorem C73_same_document_str {w : World} (hp : w.parse = parseSource) {text text' : String}
    (h : ImportsAgain text text') (b : Builder) (fuel : Nat) (name : String) :
    Redocument.SameOutcome Redocument.SameDocument (b.convertStr w fuel text name)
      (b.convertStr w fuel text' name) := by
  refine C71_same_document_str ⟨hp, rfl, fun q => ?_⟩ b fuel (importsAgain_same h) name
  cases w.read q with
  | none => exact .unreadable
  | some t => exact .read (.inl rfl) rfl

/-- **C73, schemata.** -/
theorem C73_same_schemata {w : World} (hp : w.parse = parseSource) {p : Path} {text text' : String}
    (hr : w.read p = some text) (h : ImportsAgain text text')
    (hj : w.parseJson text = w.parseJson text') (b : Builder) (fuel : Nat) (path : Path) :
    Redocument.SameOutcome Redocument.SameSchemata (b.extract w fuel path)
      (b.extract (withText w p text') fuel path) :=
  C71_same_schemata (importsAgain_rewritten hp hr h hj) b fuel path

/-- **C73, schemata of a text.** -/
theorem C73_same_schemata_str {w : World} (hp : w.parse = parseSource) {text text' : String}
    (h : ImportsAgain text text') (b : Builder) (fuel : Nat) (name : String) :
    Redocument.SameOutcome Redocument.SameSchemata (b.extractStr w fuel text name)
      (b.extractStr w fuel text' name) := by
  refine C71_same_schemata_str ⟨hp, rfl, fun q => ?_⟩ b fuel (importsAgain_same h) name
  cases w.read q with
  | none => exact .unreadable
  | some t => exact .read (.inl rfl) rfl

end

/-! ## The hypotheses are met -/

section
attribute [local instance] asciiTables exFloats exCases

/-- A file with an import. -/
def exImportOnce : String := "protocol P{import idl \"b\";record R{B b;}}"

/-- The file imports the same again, as something else. -/
def exImportTwice : String := "protocol P{import idl \"b\";record R{B b;}import schema \"b\";}"

/-- The record of the two files. -/
def exUser : BodyItem :=
  .named (.record ⟨0, [], false, "R", [⟨0, .mk [] (.named "B" none false) none, [exVar "b" none]⟩], none⟩)
    none

theorem exImportOnce_parsed :
    (parseSource "" exImportOnce).map (fun s => (s.ast.mute, s.lexerErrors)) =
    some (.protocol ⟨0, [], "P", [.import_ ⟨.idl, "\"b\"", none⟩, exUser], none⟩, []) := by evaluate

theorem exImportTwice_parsed :
    (parseSource "" exImportTwice).map (fun s => (s.ast.mute, s.lexerErrors)) =
    some (.protocol ⟨0, [], "P", [.import_ ⟨.idl, "\"b\"", none⟩, exUser,
      .import_ ⟨.schema, "\"b\"", none⟩], none⟩, []) := by evaluate

/-- What is parsed does not depend on the name of the file, apart from positions. -/
theorem parsed_anywhere {text : String} {ast : FileAst}
    (h : (parseSource "" text).map (fun s => (s.ast.mute, s.lexerErrors)) = some (ast, []))
    (file : String) : ∃ s, parseSource file text = some s ∧ s.ast.mute = ast ∧
      s.lexerErrors.map LexError.text = [] := by
  have hp := parseSource_same (file := file) (file' := "")
    (⟨_, _, lex_iff.mpr rfl, lex_iff.mpr rfl, rfl, rfl⟩ : Redocument.SameCode text text)
  cases h0 : parseSource "" text with
  | none => rw [h0] at h; cases h
  | some s0 =>
    rw [h0] at h hp
    injection h with h
    injection h with h1 h2
    cases h3 : parseSource file text with
    | none => rw [h3] at hp; cases hp
    | some s =>
      rw [h3] at hp
      injection hp with hp
      refine ⟨s, rfl, ?_, ?_⟩
      · rw [← h1]
        exact (congrArg Source.ast hp : (muteSource s).ast = (muteSource s0).ast)
      · have := congrArg (fun x : Source => x.lexerErrors.map LexError.text) hp
        unfold muteSource at this
        dsimp only at this
        rw [List.map_map, List.map_map, h2] at this
        exact this

theorem exImportsAgain : ImportsAgain exImportOnce exImportTwice := by
  intro file
  obtain ⟨s, h1, h2, h3⟩ := parsed_anywhere exImportOnce_parsed file
  obtain ⟨s', h1', h2', h3'⟩ := parsed_anywhere exImportTwice_parsed file
  refine ⟨s, s', _, _, h1, h1', sameTree_mute s.ast, ?_, sameTree_mute s'.ast, by rw [h3, h3']⟩
  rw [h2, h2']
  exact .protocol (d := ⟨0, [], "P", [], none⟩) (x := []) (y := [exUser]) (z := []) (.inl rfl)

/-- Two files. -/
def exImporting (text : String) (p : Path) : Option String :=
  if p = "a" then some text else if p = "b" then some "enum B{C}" else none

/-- Both compile, although the second import does not fit. -/
example : (exDocument (exImporting exImportOnce)).isSome = true := by decide +kernel
example : exDocument (exImporting exImportTwice) = exDocument (exImporting exImportOnce) := by
  decide +kernel

end

end Avdl.Props

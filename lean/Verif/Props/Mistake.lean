import Verif.Lemmas.MistakeDecls
import Verif.Props.Acceptance
import Verif.Lemmas.Positions
import Verif.Props.Reimport
/-!
# C57 Which mistake of a file is reported
-/

namespace Avdl.Props
open Spec Spec.Grammar

section
variable [CharTables] [FloatTables] [CaseTables]

/-- **C57.** The error of a file that is not accepted names a mistake that is there, and the first
one, everything before it being fine. -/
theorem C57_first_mistake {tokens : List Token} {ast : FileAst} {e : Fault}
    (h : readFile tokens ast = .error e) : FileMistake ast e := (readFile_error tokens ast).1 e h

/-- **C57, converse.** The first mistake of a file is what is reported; the explanation for a default
value is not determined by this. -/
theorem C57_mistake_reported {ast : FileAst} {e : Fault} (h : FileMistake ast e)
    (tokens : List Token) : ∃ e', readFile tokens ast = .error e' ∧ SameMistake e e' :=
  (readFile_error tokens ast).2 e h

/-- **C57.** No file has two first mistakes. -/
theorem C57_unique {ast : FileAst} {e e' : Fault} (h : FileMistake ast e)
    (h' : FileMistake ast e') : SameMistake e e' := by
  obtain ⟨x, hx, h1⟩ := C57_mistake_reported h []
  obtain ⟨y, hy, h2⟩ := C57_mistake_reported h' []
  rw [hx] at hy
  cases hy
  cases h1 with
  | same => cases h2 <;> constructor
  | default => cases h2 <;> constructor

/-- **C57 for texts.** A text is rejected because its tokens are not derived by the grammar, or else
with the first mistake of the tree they give. -/
theorem C57_text {w : World} (hw : w.parse = parseSource) {text name : String} {e : CompileErr}
    (h : parseIdl w text name = .error e) :
    (e = .syntaxError name ∧
      ¬ ∃ tree, File (parserTokens name 0 (streamOf 0 (lex (cutAtSub text.toList)))) tree) ∨
    ∃ tree m, File (parserTokens name 0 (streamOf 0 (lex (cutAtSub text.toList)))) tree ∧
      FileMistake tree m ∧ e = .read name m := by
  unfold parseIdl at h
  rw [hw] at h
  cases hp : parseSource name text with
  | none =>
    rw [hp] at h; cases h
    exact .inl ⟨rfl, (rejected_iff_no_reading name text).mp hp⟩
  | some src =>
    rw [hp] at h
    simp only at h
    cases hr : readFile src.tokens src.ast with
    | error m =>
      rw [hr] at h; cases h
      exact .inr ⟨src.ast, m, accepted_has_reading hp, C57_first_mistake hr, rfl⟩
    | ok r => rw [hr] at h; cases h

/-- **C57, where.** The error of a text points at the construct that is wrong (`ErrorAbout`): its
position reaches from the first to the last character of it. -/
theorem C57_where {w : World} (hw : w.parse = parseSource) {text name file : String} {m : Fault}
    (h : parseIdl w text name = .error (.read file m)) : file = name ∧ FaultAt name text m := by
  unfold parseIdl at h
  rw [hw] at h
  cases hp : parseSource name text with
  | none => rw [hp] at h; cases h
  | some src =>
    rw [hp] at h
    simp only at h
    cases hr : readFile src.tokens src.ast with
    | error m => rw [hr] at h; cases h; exact ⟨rfl, readFile_faultAt hp hr⟩
    | ok r => rw [hr] at h; cases h

/-- **C57, where, for compilations.** The same, in the compiled text or the imported file that has
the mistake. -/
theorem C57_where_compiled {w : World} (hw : w.parse = parseSource) {b : Builder} {fuel : Nat}
    {text name file : String} {dir : Path} {path : Option Path} {m : Fault}
    (h : (b.compile w fuel text name dir path).1 = .error (.read file m)) :
    ∃ content, TextOf w text name file content ∧ FaultAt file content m :=
  (compile_reported hw h).2 (by simp)

end

/-! ## Examples -/

attribute [local instance] asciiTables exFloats exCases

/-- The error of a text. -/
def mistakeOf (text : String) : Option Fault :=
  match parseSource "" text with
  | none => none
  | some src => match readFile src.tokens src.ast with
    | .error e => some e
    | .ok _ => none

theorem mistake_of_text {text : String} {src : Source} {e : Fault}
    (h : parseSource "" text = some src) (he : mistakeOf text = some e) : FileMistake src.ast e := by
  unfold mistakeOf at he
  rw [h] at he
  simp only at he
  cases hr : readFile src.tokens src.ast with
  | error e' => rw [hr] at he; cases he; exact C57_first_mistake hr
  | ok r => rw [hr] at he; cases he

/-- Of several mistakes the first is reported; a repeated name counts where its declaration ends,
and the order of annotations matters. -/
example : mistakeOf "protocol P { record R { int a, b; int c, a = 1; int? d = \"x\"; } enum E { A, A } }" =
      some ⟨.duplicateField "a" "R", some ⟨41, 1, ""⟩⟩ ∧
    mistakeOf "protocol P { record R { int a, a = \"x\"; } }" =
      some ⟨.invalidDefault "a" (.mismatch "int" "string"), some ⟨35, 3, ""⟩⟩ ∧
    mistakeOf "protocol P { void m(int a, union { int, string, int } b) oneway; fixed int(-1); }" =
      some ⟨.duplicateInUnion "int", some ⟨48, 3, ""⟩⟩ ∧
    mistakeOf "protocol P { int m(int a) oneway; fixed int(1); }" =
      some ⟨.onewayNotVoid "m", some ⟨13, 20, ""⟩⟩ ∧
    mistakeOf "protocol P { @aliases(1) @namespace(2) fixed int(1); }" =
      some ⟨.aliasesNotStrings, some ⟨13, 11, ""⟩⟩ ∧
    mistakeOf "schema null?; enum E { A, B } = C; " =
      some ⟨.defaultNotASymbol "C", some ⟨32, 1, ""⟩⟩ := by
  decide +kernel

attribute [local instance] exJsonFloats

/-- The file and the error of a compilation whose source imports a file with the given text. -/
def exFaultRun (text : String) : Option (String × Fault) :=
  match (Builder.new.compile
      (exReimportWorld fun p => if p = "b" then some text else none) 9
      "protocol P { import idl \"b\"; record R { Missing m; } }" "a" "" (some "a")).1 with
  | .error (.read n m) => some (n, m)
  | _ => none

/-- The repetition in the imported file, behind characters of more than one byte: the second `Tango`
of the union and the second `A` of the enum. -/
example :
    exFaultRun "/** é */ record S { union { Tango, Y.Tango, /* ü */ Tango } t; }" =
      some ("b", ⟨.duplicateInUnion "Tango", some ⟨54, 5, "b"⟩⟩) ∧
    exFaultRun "/** é */ protocol S { enum E { A,  B, A, B } }" =
      some ("b", ⟨.duplicateSymbol "A", some ⟨39, 1, "b"⟩⟩) := by
  decide +kernel

end Avdl.Props

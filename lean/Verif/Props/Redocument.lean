import Verif.Lemmas.MuteCompile
import Verif.Props.Layout
/-!
# C68: documentation is inert

Two texts with the same tokens, whatever their doc comments, are compiled to the same documents up
to `doc` attributes with the same warnings apart from those about doc comments, or rejected for the
same reason; and so are two sets of files that import each other.
-/

namespace Avdl.Props
open Spec.Lexing Spec.Layout Spec.Redocument MuteCompile

section
variable [CharTables] [FloatTables] [CaseTables]

/-- **C68, files.**  Adding, removing, moving or changing doc comments in any of the files of a
compilation changes only `doc` attributes of the document and warnings about doc comments; a failure
has the same reason. -/
theorem C68_same_document {w w' : World} (h : Redocumented w w') (b : Builder) (fuel : Nat)
    (path : Path) : SameOutcome SameDocument (b.convert w fuel path) (b.convert w' fuel path) := by
  rw [h.same]
  exact convert_alike h.parse (fun p => file_same (h.files p)) b fuel path

/-- **C68, texts.**  The same for a text passed as a string. -/
theorem C68_same_document_str {w w' : World} (h : Redocumented w w') (b : Builder) (fuel : Nat)
    {text text' : String} (ht : SameCode text text') (name : String) :
    SameOutcome SameDocument (b.convertStr w fuel text name) (b.convertStr w' fuel text' name) := by
  rw [h.same]
  exact convertStr_alike h.parse (fun p => file_same (h.files p)) b fuel (parseIdl_same ht) name

/-- **C68, schemata.**  The same for the schemas extracted from a file or directory. -/
theorem C68_same_schemata {w w' : World} (h : Redocumented w w') (b : Builder) (fuel : Nat)
    (path : Path) : SameOutcome SameSchemata (b.extract w fuel path) (b.extract w' fuel path) := by
  rw [h.same]
  exact extract_alike h.parse (fun p => file_same (h.files p)) b fuel path

/-- **C68, schemata of a text.** -/
theorem C68_same_schemata_str {w w' : World} (h : Redocumented w w') (b : Builder) (fuel : Nat)
    {text text' : String} (ht : SameCode text text') (name : String) :
    SameOutcome SameSchemata (b.extractStr w fuel text name) (b.extractStr w' fuel text' name) := by
  rw [h.same]
  exact extractStr_alike h.parse (fun p => file_same (h.files p)) b fuel (parseIdl_same ht) name

end

/-- **C68, layouts.**  Two texts laid out from the same tokens with any doc comments between them. -/
theorem C68_layouts_same_code {text text' : String} {ps ps' : List Piece}
    (h : LaidOut (cutAtSub text.toList) ps) (h' : LaidOut (cutAtSub text'.toList) ps')
    (hs : code ps = code ps') : SameCode text text' := by
  have e : ∀ {text : List Char} {ps : List Piece}, LaidOut text ps →
      ps.filter (fun p => p.kind.isNone) = [] := by
    intro text ps h
    induction h with
    | done => rfl
    | piece _ _ _ ih => rw [List.filter_cons]; exact ih
  exact ⟨ps, ps', laidOut_pieces h, laidOut_pieces h', hs, by rw [e h, e h']⟩

/-- Texts with the same tokens and doc comments have the same tokens: C68 covers the changes of
layout of C40. -/
theorem C68_covers_layout {text text' : String} (h : Spec.Reformat.SameTokens text text') :
    SameCode text text' := by
  obtain ⟨ps, ps', h1, h2, h3, h4⟩ := h
  exact ⟨ps, ps', h1, h2, by unfold code; rw [h3], h4⟩

/-! ## The hypotheses are met -/

section
attribute [local instance] asciiTables exFloats exCases

/-- A protocol without documentation. -/
def exPlainText : String :=
  "protocol P{record R{string a;@order(\"ignore\")int b=1;}enum E{X,Y}=X;R doc(E e)throws R;}"

/-- The same protocol with doc comments, two of which document nothing. -/
def exDocText : String :=
  "/** p */ protocol P { /** r */ record R { /** a */ string a; @order(\"ignore\") int /** b */ b = /** q */ 1; } /** e */ enum E { /** x */ X, Y } = X;\n /** m */ R doc(E e) throws R; }"

/-- One file. -/
def exPlainFile (p : Path) : Option String := if p = "a" then some exPlainText else none

/-- The same file with doc comments. -/
def exDocFile (p : Path) : Option String := if p = "a" then some exDocText else none

theorem exSameCode : SameCode exPlainText exDocText :=
  ⟨_, _, lex_iff.mpr rfl, lex_iff.mpr rfl, by decide +kernel, by decide +kernel⟩

theorem exRedocumented : Redocumented (exLayoutWorld exPlainFile)
    { exLayoutWorld exPlainFile with read := exDocFile } where
  parse := rfl
  same := rfl
  files p := by
    show SameFile _ (if p = "a" then _ else _) (if p = "a" then _ else _)
    split
    · exact .read exSameCode rfl
    · exact .unreadable

/-- Both compile, the documents differ, and they are the same without `doc` attributes: a message
called `doc` stays. -/
example : (exDocument exPlainFile).isSome = true := by decide +kernel
example : exDocument exDocFile ≠ exDocument exPlainFile := by decide +kernel
example : (exDocument exDocFile).map undoc = exDocument exPlainFile := by decide +kernel
example : undoc (.obj [("doc", .str "x"), ("messages", .obj [("doc", .obj [("doc", .str "y")])])]) =
    .obj [("messages", .obj [("doc", .obj [])])] := by decide +kernel

/-- The numbers of the warnings of a conversion, and of those not about doc comments. -/
def exWarningCounts (read : Path → Option String) : Option (Nat × Nat) :=
  match (Builder.new.convert (exLayoutWorld read) 9 "a").1 with
  | .ok out => some (out.warnings.length, (out.warnings.filter fun r => !aboutDocs r).length)
  | .error _ => none

/-- The doc comments before the default value and the symbol document nothing. -/
example : exWarningCounts exDocFile = some (2, 0) := by decide +kernel
example : exWarningCounts exPlainFile = some (0, 0) := by decide +kernel

end

end Avdl.Props

import Verif.Lemmas.BareCompile
import Verif.Props.Lexing
import Verif.Props.ReaderTypes
/-!
# C40: layout does not matter for the output

Two texts with the same tokens and doc comments are compiled to the same documents with the same
warnings, or rejected for the same reason; and so are two sets of files that import each other.
-/

namespace Avdl.Props
open Spec.Lexing Spec.Layout Spec.Reformat BareCompile

section
variable [CharTables] [FloatTables] [CaseTables]

theorem sameBuilder_refl (b : Builder) : SameBuilder b b := ⟨rfl, sameReports_iff.mpr rfl⟩

/-- **C40, files.**  Reformatting any of the files of a compilation changes neither the document nor
the texts of the warnings, nor what the builder remembers; a failure has the same reason. -/
theorem C40_same_document {w w' : World} (h : Reformatted w w') (b : Builder) (fuel : Nat)
    (path : Path) : SameOutcome SameDocument (b.convert w fuel path) (b.convert w' fuel path) := by
  rw [h.same]
  exact convertImpl_same fuel (compileFile_same h.parse h.requoted.files (sameBuilder_refl b) fuel path)

/-- **C40, texts.**  The same for a text passed as a string. -/
theorem C40_same_document_str {w w' : World} (h : Reformatted w w') (b : Builder) (fuel : Nat)
    {text text' : String} (ht : SameTokens text text') (name : String) :
    SameOutcome SameDocument (b.convertStr w fuel text name) (b.convertStr w' fuel text' name) := by
  rw [h.same]
  exact convertImpl_same fuel
    (compileStr_same h.parse h.requoted.files (sameBuilder_refl b) fuel ht.requoted name)

/-- Extracting the schemas of a list of files. -/
theorem extractFiles_same {w : World} {rd : Path → Option String} (hp : w.parse = parseSource)
    (hf : ∀ p, Spec.Backticks.SameFile w.parseJson (w.read p) (rd p)) (fuel : Nat) (ps : List Path)
    {b b' : Builder} (hb : SameBuilder b b') :
    SameOutcome SameSchemata (Builder.extractFiles w fuel ps b)
      (Builder.extractFiles { w with read := rd } fuel ps b') := by
  induction ps generalizing b b' with
  | nil => exact .ok ⟨rfl, .nil⟩ hb
  | cons p ps ih =>
    have h1 := extractFrom_same fuel (compileFile_same hp hf hb fuel p)
    rw [Builder.extractFiles, Builder.extractFiles]
    generalize extractFrom fuel (b.compileFile w fuel p) = x at h1
    generalize extractFrom fuel (b'.compileFile { w with read := rd } fuel p) = y at h1
    cases h1 with
    | error e hb => exact .error e hb
    | @ok out out' b1 b2 ho hb =>
      dsimp only
      have h3 := ih hb
      generalize Builder.extractFiles w fuel ps b1 = x at h3
      generalize Builder.extractFiles { w with read := rd } fuel ps b2 = y at h3
      cases h3 with
      | error e hb => exact .error e hb
      | ok hr hb => exact .ok ⟨by rw [ho.1, hr.1], BareCompile.SameReports.append ho.2 hr.2⟩ hb

/-- **C40, schemata.**  The same for the schemas extracted from a file or directory. -/
theorem C40_same_schemata {w w' : World} (h : Reformatted w w') (b : Builder) (fuel : Nat)
    (path : Path) : SameOutcome SameSchemata (b.extract w fuel path) (b.extract w' fuel path) := by
  rw [h.same]
  unfold Builder.extract
  dsimp only
  split
  · exact extractFiles_same h.parse h.requoted.files fuel _ (sameBuilder_refl b)
  · exact extractFrom_same fuel
      (compileFile_same h.parse h.requoted.files (sameBuilder_refl b) fuel path)

/-- **C40, schemata of a text.** -/
theorem C40_same_schemata_str {w w' : World} (h : Reformatted w w') (b : Builder) (fuel : Nat)
    {text text' : String} (ht : SameTokens text text') (name : String) :
    SameOutcome SameSchemata (b.extractStr w fuel text name) (b.extractStr w' fuel text' name) := by
  rw [h.same]
  exact extractFrom_same fuel
    (compileStr_same h.parse h.requoted.files (sameBuilder_refl b) fuel ht.requoted name)

end

/-! ## Texts that differ in layout -/

theorem cutAtSub_append {a b : List Char} (h : '\x1a' ∉ a) :
    cutAtSub (a ++ b) = a ++ cutAtSub b := by
  unfold cutAtSub
  rw [List.takeWhile_append_of_pos]
  intro c hc
  exact bne_iff_ne.mpr fun e => h (e ▸ hc)

/-- **C40, blanks.**  White space or a comment between two parts of a text that are separate anyway
leaves the tokens as they are. -/
theorem C40_blank_same_tokens {a b t : List Char} {k : Kind} (ha : Clean (lex a)) (ht : Blank k t)
    (hcr : ∀ x y, a = x ++ ['\r'] → t ++ b ≠ '\n' :: y)
    (hcr' : ∀ x y, t = x ++ ['\r'] → b ≠ '\n' :: y)
    (hsplit : lex (a ++ b) = lex a ++ lex b)
    (hsa : '\x1a' ∉ a) (hst : '\x1a' ∉ t) (hsb : '\x1a' ∉ b) :
    SameTokens (String.ofList (a ++ (t ++ b))) (String.ofList (a ++ b)) := by
  have hb : cutAtSub b = b := by
    have := cutAtSub_append (b := []) hsb
    rw [List.append_nil] at this
    exact this.trans (List.append_nil b)
  refine ⟨_, _, lex_iff.mpr rfl, lex_iff.mpr rfl, ?_, ?_⟩ <;>
    rw [String.toList_ofList, String.toList_ofList, cutAtSub_append hsa, cutAtSub_append hst,
      cutAtSub_append hsa, hb]
  · exact blank_not_significant ha ht hcr hcr' hsplit
  · rw [blank_between ha ht hcr hcr', hsplit, List.filter_append, List.filter_append]
    rfl

/-- **C40, layouts.**  Two ways to lay out the same tokens. -/
theorem C40_layouts_same_tokens {text text' : String} {ps ps' : List Piece}
    (h : LaidOut (cutAtSub text.toList) ps) (h' : LaidOut (cutAtSub text'.toList) ps')
    (hs : significant ps = significant ps') : SameTokens text text' := by
  have e : ∀ {text : List Char} {ps : List Piece}, LaidOut text ps →
      ps.filter (fun p => p.kind.isNone) = [] := by
    intro text ps h
    induction h with
    | done => rfl
    | piece _ _ _ ih => rw [List.filter_cons]; exact ih
  exact ⟨ps, ps', laidOut_pieces h, laidOut_pieces h', hs, by rw [e h, e h']⟩

/-! ## The hypotheses are met -/

section
attribute [local instance] asciiTables exFloats exCases

/-- A file system with a single directory. -/
def exLayoutWorld (read : Path → Option String) : World where
  join _ f := f
  parent _ := some ""
  fileName := some
  exists_ p := (read p).isSome
  canonicalize := some
  cwd := some ""
  isDir _ := false
  walk _ := []
  read := read
  parse := parseSource
  parseJson _ := none

/-- One file. -/
def exFileA (p : Path) : Option String :=
  if p = "a" then some "protocol P{record R{R?r;}}" else none

/-- The same file with another layout. -/
def exFileB (p : Path) : Option String :=
  if p = "a" then some "protocol P {//c\n record R\t{R ? /*x*/ r;\n}}" else none

theorem exSameTokens : SameTokens "protocol P{record R{R?r;}}"
    "protocol P {//c\n record R\t{R ? /*x*/ r;\n}}" :=
  ⟨_, _, lex_iff.mpr rfl, lex_iff.mpr rfl, by decide +kernel, by decide +kernel⟩

example : Reformatted (exLayoutWorld exFileA)
    { exLayoutWorld exFileA with read := exFileB } where
  parse := rfl
  same := rfl
  files p := by
    show SameFile _ (if p = "a" then _ else _) (if p = "a" then _ else _)
    split
    · exact .read exSameTokens rfl
    · exact .unreadable

/-- The document of that file. -/
def exDocument (read : Path → Option String) : Option Json :=
  match (Builder.new.convert (exLayoutWorld read) 9 "a").1 with
  | .ok out => some out.json
  | .error _ => none

example : (exDocument exFileA).isSome = true := by decide +kernel
example : exDocument exFileB = exDocument exFileA := by decide +kernel

end

end Avdl.Props

import Verif.Props.Layout
/-!
# C70: backticks around identifiers do not matter

Identifiers, or their parts between dots, may be written in backticks.  Unless the identifier is a
keyword, that changes nothing: the documents, the warnings and the reasons of failures are the same.
-/

namespace Avdl.Props
open Spec.Lexing Spec.Layout Spec.Reformat Spec.Backticks BareCompile

section
variable [CharTables] [FloatTables] [CaseTables]

/-- **C70, files.**  Backticks around identifiers in any of the files of a compilation change neither
the document nor the texts of the warnings, nor what the builder remembers; a failure has the same
reason. -/
theorem C70_same_document {w w' : World} (h : Requoted w w') (b : Builder) (fuel : Nat)
    (path : Path) : SameOutcome SameDocument (b.convert w fuel path) (b.convert w' fuel path) := by
  rw [h.same]
  exact convertImpl_same fuel (compileFile_same h.parse h.files (sameBuilder_refl b) fuel path)

/-- **C70, texts.**  The same for a text passed as a string. -/
theorem C70_same_document_str {w w' : World} (h : Requoted w w') (b : Builder) (fuel : Nat)
    {text text' : String} (ht : Spec.Backticks.SameTokens text text') (name : String) :
    SameOutcome SameDocument (b.convertStr w fuel text name) (b.convertStr w' fuel text' name) := by
  rw [h.same]
  exact convertImpl_same fuel (compileStr_same h.parse h.files (sameBuilder_refl b) fuel ht name)

/-- **C70, schemata.**  The same for the schemas extracted from a file or directory. -/
theorem C70_same_schemata {w w' : World} (h : Requoted w w') (b : Builder) (fuel : Nat)
    (path : Path) : SameOutcome SameSchemata (b.extract w fuel path) (b.extract w' fuel path) := by
  rw [h.same]
  unfold Builder.extract
  dsimp only
  split
  · exact extractFiles_same h.parse h.files fuel _ (sameBuilder_refl b)
  · exact extractFrom_same fuel (compileFile_same h.parse h.files (sameBuilder_refl b) fuel path)

/-- **C70, schemata of a text.** -/
theorem C70_same_schemata_str {w w' : World} (h : Requoted w w') (b : Builder) (fuel : Nat)
    {text text' : String} (ht : Spec.Backticks.SameTokens text text') (name : String) :
    SameOutcome SameSchemata (b.extractStr w fuel text name) (b.extractStr w' fuel text' name) := by
  rw [h.same]
  exact extractFrom_same fuel (compileStr_same h.parse h.files (sameBuilder_refl b) fuel ht name)

end

/-! ## The hypotheses are met -/

section
attribute [local instance] asciiTables exFloats exCases

/-- Compares tokens up to backticks in identifiers. -/
def sameTokensCheck : List (Kind × List Char) → List (Kind × List Char) → Bool
  | [], [] => true
  | (k, t) :: l, (k', t') :: l' =>
      k == k' && (t == t' || k == .ident && unquoted t == unquoted t') && sameTokensCheck l l'
  | _, _ => false

theorem sameTokens_of_check {l l' : List (Kind × List Char)} (h : sameTokensCheck l l' = true) :
    List.Forall₂ SameToken l l' := by
  induction l generalizing l' with
  | nil =>
    cases l' with
    | nil => exact .nil
    | cons x l' => cases h
  | cons x l ih =>
    obtain ⟨k, t⟩ := x
    cases l' with
    | nil => cases h
    | cons x l' =>
      obtain ⟨k', t'⟩ := x
      rw [sameTokensCheck, Bool.and_eq_true, Bool.and_eq_true, Bool.or_eq_true, Bool.and_eq_true,
        beq_iff_eq, beq_iff_eq, beq_iff_eq, beq_iff_eq] at h
      obtain ⟨⟨rfl, h1⟩, h2⟩ := h
      refine .cons ?_ (ih h2)
      rcases h1 with rfl | ⟨rfl, h1⟩
      · exact .same
      · exact .identifier h1

/-- A file without backticks. -/
def exPlain (p : Path) : Option String :=
  if p = "a" then some "protocol P{@aliases([\"b\"])record a.R{a.R? r;}enum E{A,B}=B;}" else none

/-- The same file with backticks. -/
def exQuoted (p : Path) : Option String :=
  if p = "a" then
    some "protocol `P`{@`aliases`([\"b\"])record `a`.`R`{`a`.R? `r`;}enum `E`{A,`B`}=B;}"
  else none

theorem exSameQuoted : Spec.Backticks.SameTokens
    "protocol P{@aliases([\"b\"])record a.R{a.R? r;}enum E{A,B}=B;}"
    "protocol `P`{@`aliases`([\"b\"])record `a`.`R`{`a`.R? `r`;}enum `E`{A,`B`}=B;}" := by
  exact ⟨_, _, lex_iff.mpr rfl, lex_iff.mpr rfl, sameTokens_of_check (by decide +kernel),
    by decide +kernel⟩

example : Requoted (exLayoutWorld exPlain) { exLayoutWorld exPlain with read := exQuoted } where
  parse := rfl
  same := rfl
  files p := by
    show Spec.Backticks.SameFile _ (if p = "a" then _ else _) (if p = "a" then _ else _)
    split
    · exact .read exSameQuoted rfl
    · exact .unreadable

/-- **C70, names.**  The name of an identifier without backticks is its text. -/
theorem C70_name_kept {s : String} (h : '`' ∉ s.toList) : identifierText s = s := by
  rw [identifierText, List.filter_eq_self.mpr, String.ofList_toList]
  intro c hc
  exact decide_eq_true fun e => h (e ▸ hc)

/-- **C70, names.**  Of a part in backticks only these are lost. -/
theorem C70_name_unquoted (before part after : List Char) (h : '`' ∉ part) :
    (identifierText (String.ofList (before ++ '`' :: (part ++ '`' :: after)))).toList =
      (identifierText (String.ofList before)).toList ++ part ++
        (identifierText (String.ofList after)).toList := by
  have hp : part.filter (fun c => decide (c ≠ '`')) = part :=
    List.filter_eq_self.mpr fun c hc => decide_eq_true fun e => h (e ▸ hc)
  simp only [identifierText, String.toList_ofList, List.filter_append, List.filter_cons, hp]
  simp

example : identifierText "a.`b-c`.d" = "a.b-c.d" := by decide +kernel

/-- **C70, keywords.**  A keyword in backticks is an identifier: the type `string` is defined, a type
of that name is not. -/
theorem C70_keyword_differs :
    (∃ out b, Builder.new.convertStr (exLayoutWorld fun _ => none) 9 "schema string;" "x" =
      (.ok out, b)) ∧
    ∃ span b, Builder.new.convertStr (exLayoutWorld fun _ => none) 9 "schema `string`;" "x" =
      (.error (.undefined [("string", span)]), b) := by
  have h1 : (match Builder.new.convertStr (exLayoutWorld fun _ => none) 9 "schema string;" "x" with
      | (.ok _, _) => true
      | _ => false) = true := by decide +kernel
  have h2 : (match Builder.new.convertStr (exLayoutWorld fun _ => none) 9 "schema `string`;" "x" with
      | (.error (.undefined [(n, _)]), _) => n == "string"
      | _ => false) = true := by decide +kernel
  constructor
  · revert h1
    generalize Builder.new.convertStr (exLayoutWorld fun _ => none) 9 "schema string;" "x" = r
    intro h1
    split at h1
    · exact ⟨_, _, rfl⟩
    · cases h1
  · revert h2
    generalize Builder.new.convertStr (exLayoutWorld fun _ => none) 9 "schema `string`;" "x" = r
    intro h2
    split at h2
    · rw [beq_iff_eq] at h2
      subst h2
      exact ⟨_, _, rfl⟩
    · cases h2

example : (exDocument exPlain).isSome = true := by decide +kernel
example : exDocument exQuoted = exDocument exPlain := by decide +kernel

end

end Avdl.Props

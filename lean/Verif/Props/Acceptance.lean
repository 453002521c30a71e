import Verif.Lemmas.AcceptDecls
import Verif.Lemmas.NodeSpans
import Verif.Lemmas.WarningText
import Verif.Compiler
import Verif.Props.Grammar
import Verif.Props.Source
/-!
# C53 Which files are accepted, C54 which warnings are given
-/

namespace Avdl.Props
open Spec Spec.Grammar Spec.Lexing

section
variable [CharTables] [FloatTables] [CaseTables]

/-- **C53.** A syntax tree is accepted exactly if it has none of the mistakes listed in the
specification; nothing else makes the reader reject it. -/
theorem C53_accepted_iff (tokens : List Token) (ast : FileAst) :
    (∃ r, readFile tokens ast = .ok r) ↔ FileOk ast := readFile_accepts tokens ast

/-- **C53 for texts.** A text is accepted exactly if its tokens are derived by the grammar and the
resulting tree has no mistakes. -/
theorem C53_text_accepted_iff {w : World} (hw : w.parse = parseSource) (text name : String) :
    (∃ r, parseIdl w text name = .ok r) ↔
      ∃ tree, File (parserTokens name 0 (streamOf 0 (lex (cutAtSub text.toList)))) tree ∧
        FileOk tree := by
  unfold parseIdl
  rw [hw]
  cases hp : parseSource name text with
  | none =>
    have := (rejected_iff_no_reading name text).mp hp
    simp only [reduceCtorEq, exists_false, false_iff]
    rintro ⟨tree, h, -⟩
    exact this ⟨tree, h⟩
  | some src =>
    have ht := accepted_has_reading hp
    have ha := C53_accepted_iff src.tokens src.ast
    have : (∃ tree, File (parserTokens name 0 (streamOf 0 (lex (cutAtSub text.toList)))) tree ∧
        FileOk tree) ↔ FileOk src.ast :=
      ⟨fun ⟨tree, h, hok⟩ => grammar_unambiguous h ht ▸ hok, fun h => ⟨_, ht, h⟩⟩
    rw [this, ← ha]
    simp only
    cases readFile src.tokens src.ast with
    | error e => simp
    | ok r => simp

/-- **C54.** An accepted file gives one warning for each alias that is no legal name and for each
union with annotations, in the order of the source, and no others. -/
theorem C54_warnings_exact {tokens : List Token} {ast : FileAst} {r : ReadResult}
    (h : readFile tokens ast = .ok r) : Matching WarnsAbout (fileNotices ast) r.warnings :=
  readFile_warns h

/-- **C54 for texts.** Besides, there is one warning for each piece of text that is no token and
for each doc comment that belongs to no declaration, in the order of the text, and these come
first. -/
theorem C54_text_warnings {w : World} (hw : w.parse = parseSource) {text name : String}
    {f : IdlFile} {ds : List DeclItem} {ws : List Warning}
    (h : parseIdl w text name = .ok (f, ds, ws)) :
    ∃ (ps : List Piece) (src : Source) (errors : List LexError) (orphans : List Nat)
      (docs : List Warning) (walk : List WalkWarning),
      ws = errors.map .lexer ++ docs ++ walk.map .walk ∧
      Pieces (cutAtSub text.toList) ps ∧ parseSource name text = some src ∧
      File (parserTokens name 0 (streamOf 0 ps)) src.ast ∧
      Matching (LexErrorAt name) (unrecognised ps) errors ∧
      orphans.Pairwise (· < ·) ∧
      (∀ i, i ∈ orphans ↔ (∃ t, src.tokens[i]? = some t ∧ t.type = .doc) ∧
        ¬ ∃ place ∈ docPlaces src.ast, DocBefore src.tokens place (some i)) ∧
      Matching (DocWarningAt name ps) orphans docs ∧
      Matching WarnsAbout (fileNotices src.ast) walk := by
  unfold parseIdl at h
  rw [hw] at h
  cases hp : parseSource name text with
  | none => rw [hp] at h; cases h
  | some src =>
    rw [hp] at h
    simp only at h
    have ht := accepted_has_reading hp
    have he : src.lexerErrors = lexErrorsOf name (cutAtSub text.toList) (1, 0)
        (lex (cutAtSub text.toList)) := by
      unfold parseSource at hp
      obtain ⟨tree, -, rfl⟩ := Option.map_eq_some_iff.mp hp
      rfl
    cases hr : readFile src.tokens src.ast with
    | error e => rw [hr] at h; cases h
    | ok r =>
      rw [hr] at h
      injection h with h
      simp only [Prod.mk.injEq] at h
      obtain ⟨h1, h2⟩ := C30_reported_exactly hr
      refine ⟨_, src, src.lexerErrors, r.orphans, _, r.warnings, h.2.2.symm, lex_iff.mpr rfl, rfl, ht,
        ?_, h1, h2, ?_, C54_warnings_exact hr⟩
      · rw [he]
        exact lexErrorsOf_placed _ [] (pieces_text (lex_iff.mpr rfl)).symm
      · have h3 : ∀ i ∈ r.orphans, DocWarningAt name (lex (cutAtSub text.toList)) i
            (docWarning src.marks name i) := by
          intro i hi
          obtain ⟨⟨t, ht, hd⟩, -⟩ := (h2 i).mp hi
          exact docWarning_at hp ht hd
        revert h3
        generalize r.orphans = is
        intro h3
        induction is with
        | nil => exact .nil
        | cons i is ih =>
          exact .cons (h3 i (List.mem_cons_self ..)) (ih fun j hj => h3 j (List.mem_cons_of_mem _ hj))

/-- **C54, where.** These warnings point at what they are about (`WarningAbout`): the whole annotation
with the odd alias, the union with its annotations. -/
theorem C54_where {w : World} (hw : w.parse = parseSource) {text name : String}
    {f : IdlFile} {ds : List DeclItem} {ws : List Warning}
    (h : parseIdl w text name = .ok (f, ds, ws)) (x : WalkWarning) (hx : .walk x ∈ ws) :
    WarningAt name text x := by
  unfold parseIdl at h
  rw [hw] at h
  cases hp : parseSource name text with
  | none => rw [hp] at h; cases h
  | some src =>
    rw [hp] at h
    simp only at h
    cases hr : readFile src.tokens src.ast with
    | error m => rw [hr] at h; cases h
    | ok r =>
      rw [hr] at h
      cases h
      refine readFile_warningAt hp hr x ?_
      simpa [docWarning] using hx

end

/-! ## Examples -/

attribute [local instance] asciiTables exFloats exCases

/-- Whether a text is accepted. -/
def acceptsText (text : String) : Bool :=
  match parseSource "" text with
  | none => false
  | some src => match readFile src.tokens src.ast with
    | .error _ => false
    | .ok _ => true

/-- The warnings of a text. -/
def warningsOf (text : String) : List WalkWarning :=
  match parseSource "" text with
  | none => []
  | some src => match readFile src.tokens src.ast with
    | .error _ => []
    | .ok r => r.warnings

theorem fileOk_of_text {text : String} {src : Source} (h : parseSource "" text = some src) :
    acceptsText text = true ↔ FileOk src.ast := by
  rw [← C53_accepted_iff src.tokens src.ast]
  unfold acceptsText
  rw [h]
  simp only
  cases readFile src.tokens src.ast with
  | error e => simp
  | ok r => simp

/-- A protocol with most of what can go wrong, done right. -/
def exFineText : String :=
  "@namespace(\"a.b\") protocol P { @aliases([\"c.y\"]) record R { @p(1) int a = 1, " ++
  "@order(\"IGNORE\") b; union { null, int, R } c = null; } enum E { A, B } = B; " ++
  "fixed F(4); @n(\"\") void m(R r, int s = 2) throws X; void n() oneway; Q? k(); }"

example : acceptsText exFineText = true := by decide +kernel
-- one mistake each
example : acceptsText "record int { }" = false := by decide +kernel
example : acceptsText "@size(3) record R { }" = false := by decide +kernel
example : acceptsText "@namespace(3) record R { }" = false := by decide +kernel
example : acceptsText "@aliases([\"a\", 1]) record R { }" = false := by decide +kernel
example : acceptsText "record R { int @order(\"up\") a; }" = false := by decide +kernel
example : acceptsText "record R { int a; long a; }" = false := by decide +kernel
example : acceptsText "record R { int a = \"x\"; }" = false := by decide +kernel
example : acceptsText "record R { union { int, int } a; }" = false := by decide +kernel
example : acceptsText "record R { union { int?, string } a; }" = false := by decide +kernel
example : acceptsText "record R { null? a; }" = false := by decide +kernel
example : acceptsText "record R { @p(1) Q a; }" = false := by decide +kernel
example : acceptsText "enum E { A, A }" = false := by decide +kernel
example : acceptsText "enum E { A } = B;" = false := by decide +kernel
example : acceptsText "fixed F(4294967296);" = false := by decide +kernel
example : acceptsText "protocol P { int m() oneway; }" = false := by decide +kernel
example : acceptsText "protocol P { int m(int a, int a); }" = false := by decide +kernel
example : acceptsText "protocol P { @p(1) Q m(); }" = false := by decide +kernel

/-- Two odd aliases and one union with annotations. -/
def exWarnText : String :=
  "@aliases([\"ok\", \"not-ok\"]) record R { @p(1) @q(2) union { int, @r(3) array<int> } a; " ++
  "int @aliases([\"1b\", \"c.d\"]) b; @s(4) int? c; }"

example : warningsOf exWarnText = [.nonStandardAlias "not-ok" (some ⟨0, 26, ""⟩),
    .annotationsDropped ["p", "q"] (some ⟨38, 43, ""⟩),
    .nonStandardAlias "1b" (some ⟨89, 23, ""⟩)] := by decide +kernel

end Avdl.Props

import Verif.Lemmas.ParserComplete
/-!
# C38: the parser accepts exactly the grammar

`Spec.Grammar.File tokens tree` says that the published grammar derives the tokens with that tree.
-/

namespace Avdl.Props
open Spec.Grammar

/-- The parser succeeds exactly on the token lists the grammar derives, with the tree the grammar
gives them; the number of tokens is enough fuel. -/
theorem parser_accepts_exactly_grammar (ts : List PTok) (tree : FileAst) :
    pFile (ts.length + 1) ts = some tree ↔ File ts tree :=
  ⟨pFile_sound, fun h => pFile_complete h (Nat.lt_succ_self _)⟩

/-- A token list has at most one reading. -/
theorem grammar_unambiguous {ts : List PTok} {tree tree' : FileAst} (h : File ts tree)
    (h' : File ts tree') : tree = tree' := by
  have e := (parser_accepts_exactly_grammar ts tree).mpr h
  rw [(parser_accepts_exactly_grammar ts tree').mpr h'] at e
  injection e with e
  exact e.symm

/-- Source text is rejected exactly if its tokens have no reading. -/
theorem rejected_iff_no_reading (file text : String) :
    parseSource file text = none ↔
      ¬ ∃ tree, File (parserTokens file 0 (streamOf 0 (lex (cutAtSub text.toList)))) tree := by
  unfold parseSource
  rw [Option.map_eq_none_iff]
  constructor
  · rintro h ⟨tree, ht⟩
    rw [(parser_accepts_exactly_grammar _ tree).mpr ht] at h
    cases h
  · intro h
    cases e : pFile _ (parserTokens file 0 (streamOf 0 (lex (cutAtSub text.toList)))) with
    | none => rfl
    | some tree => exact absurd ⟨tree, (parser_accepts_exactly_grammar _ tree).mp e⟩ h

/-- Source text that is accepted has the tree of the grammar. -/
theorem accepted_has_reading {file text : String} {src : Source}
    (h : parseSource file text = some src) :
    File (parserTokens file 0 (streamOf 0 (lex (cutAtSub text.toList)))) src.ast := by
  unfold parseSource at h
  obtain ⟨tree, ht, rfl⟩ := Option.map_eq_some_iff.mp h
  exact (parser_accepts_exactly_grammar _ tree).mp ht

/-- The first side condition of the grammar only selects a reading: a name or keyword where a type
is expected has one, with or without question mark. -/
theorem single_word_is_type {t : PTok} {q : List PTok} {b : Bool} (ht : Ident t)
    (hq : Question q b) : ∃ p, Plain (t :: q) p := by
  by_cases h : ∃ w p, Word w t ∧ SimpleType w p
  · obtain ⟨w, p, hw, hp⟩ := h
    exact ⟨_, .primitive (.simple hw hp) hq⟩
  · exact ⟨_, .named ht (fun w p hw hp => h ⟨w, p, hw, hp⟩) hq⟩

/-- So does the second: a type where a result is expected has a reading. -/
theorem type_is_result {ts : List PTok} {p : PlainType} (h : Plain ts p) : ∃ r, Result ts r := by
  by_cases hv : ∃ t, ts = [t] ∧ Word "void" t
  · obtain ⟨t, rfl, ht⟩ := hv
    exact ⟨_, .void ht⟩
  · exact ⟨_, .plain h (fun t e ht => hv ⟨t, e, ht⟩)⟩

/-! ## The hypotheses are met -/

/-- The shape of a tree, for the examples. -/
def treeShape : Option Source → List String
  | some ⟨_, _, .protocol p, _⟩ => p.ident :: p.body.map fun
      | .import_ i => "import " ++ i.location
      | .named (.record r) _ => (if r.isError then "error " else "record ") ++ r.ident
      | .named (.enum e) _ => "enum " ++ e.ident
      | .named (.fixed f) _ => "fixed " ++ f.ident
      | .message m => "message " ++ m.ident
  | some ⟨_, _, .schema ns _ body, _⟩ => ns.toList ++ ["schema file"] ++ body.map fun
      | .import_ i => "import " ++ i.location
      | .named (.record r) _ => (if r.isError then "error " else "record ") ++ r.ident
      | .named (.enum e) _ => "enum " ++ e.ident
      | .named (.fixed f) _ => "fixed " ++ f.ident
  | none => ["rejected"]

/-- A source text with all kinds of declarations. -/
def exGrammarText : String :=
  "@n(1) protocol `P` { import idl \"a\"; fixed F(16); fixed f(); enum E { A, B } = A; " ++
  "error X { union { null, array<map<int?>> } a = null, @o([]) b; decimal(9, 2) record; } " ++
  "void m(X x, int s = 1) throws X; void? n(); }"

example : treeShape (parseSource "" exGrammarText) = ["`P`", "import \"a\"", "fixed F",
    "message f", "enum E", "error X", "message m", "message n"] := by
  decide +kernel

example : treeShape (parseSource "" "namespace a.b; schema array<R>; record R { int x; }") =
    ["a.b", "schema file", "record R"] := by decide +kernel

example : treeShape (parseSource "" "record R { int x }") = ["rejected"] := by decide +kernel
example : treeShape (parseSource "" "protocol P { } record R { }") = ["rejected"] := by
  decide +kernel

end Avdl.Props

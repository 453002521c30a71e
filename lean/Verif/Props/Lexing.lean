import Verif.Lemmas.LayoutText
import Verif.Lemmas.Tokens
import Verif.Parser
/-!
# C39, C40: tokens and layout

`Spec.Lexing.Pieces text pieces` says what the tokens of a text are: the longest match of the first
rule, over and over.  `Spec.Layout` says how tokens may be put one after the other.
-/

namespace Avdl.Props
open Spec.Lexing Spec.Layout

/-! ## C39: tokens -/

/-- The lexer computes the tokens of a text, and there is only one way to split a text. -/
theorem lexer_finds_tokens (text : List Char) (ps : List Piece) :
    lex text = ps ↔ Pieces text ps := lex_iff.symm

/-- No character is lost: every character of the text is in a token, in skipped white space or a
skipped comment, or in a piece reported as unrecognised. -/
theorem lexer_is_lossless (text : List Char) : (lex text).flatMap (·.text) = text :=
  pieces_text (lex_iff.mpr rfl)

/-- Every text that is not recognised is reported. -/
theorem unrecognised_reported (text : List Char) (w : List Char) :
    (⟨none, w⟩ : Piece) ∈ lex text → w ∈ lexErrors (lex text) := by
  intro h
  exact List.mem_filterMap.mpr ⟨_, h, rfl⟩

/-- Tokens put together with the necessary separators are the tokens of the whole. -/
theorem laid_out_tokens {text : List Char} {ps : List Piece} (h : LaidOut text ps) :
    lex text = ps := lex_iff.mp (laidOut_pieces h)

/-- **C39, the vocabulary.**  The lexer cuts a text into the tokens described in Spec/Tokens.lean,
each time the longest one, a reserved word not being a name; and into the parts that are no
token. -/
theorem C39_tokens_of_text (text : List Char) (ps : List Piece) :
    lex text = ps ↔ Spec.Tokens.Cut text ps := lex_iff.symm.trans pieces_cut

/-- A text belongs to one kind of token only, apart from the reserved words, `NaN` and `Infinity`,
which look like names. -/
theorem C39_kind_unique {k k' : Kind} {w : List Char} (h : Spec.Tokens.TokenText k w)
    (h' : Spec.Tokens.TokenText k' w) (hk : k ≠ .ident) (hk' : k' ≠ .ident) : k = k' := by
  by_cases e : k = k'
  · exact e
  · rcases kind_unique h h' e with ⟨h, _⟩ | ⟨h, _⟩
    · exact absurd h hk
    · exact absurd h hk'

/-- Among the characters of ASCII, names begin with a letter or an underscore, and go on with these
and digits. -/
theorem C39_ascii_names : ∀ n < 128,
    (isIdentStart (Char.ofNat n) =
      (decide (65 ≤ n ∧ n ≤ 90) || decide (97 ≤ n ∧ n ≤ 122) || n == 95)) ∧
    (isIdentPart (Char.ofNat n) =
      (isIdentStart (Char.ofNat n) || decide (48 ≤ n ∧ n ≤ 57))) := by
  decide +kernel

example : Spec.Tokens.Cut "record R.`int`;".toList
    [⟨some (.kw "record"), "record".toList⟩, ⟨some .ws, " ".toList⟩,
     ⟨some .ident, "R.`int`".toList⟩, ⟨some (.sym ';'), ";".toList⟩] :=
  (C39_tokens_of_text _ _).mp (by decide +kernel)

/-! ## C40: layout -/

/-- A recognised text can be continued at a delimiter: the tokens of the whole are those of the
parts.  Excepted are the empty block comment `/**/` and a line break split between its two
characters. -/
theorem tokens_of_parts {a b : List Char} (ha : Clean (lex a)) (hb : AtDelimiter b)
    (hcr : ∀ x y, a = x ++ ['\r'] → b ≠ '\n' :: y) : lex (a ++ b) = lex a ++ lex b :=
  lex_iff.mp (pieces_append (lex_iff.mpr rfl) ha (lex_iff.mpr rfl) hb hcr)

/-- What stands between tokens: white space, a block comment or a line comment. -/
def Blank (k : Kind) (t : List Char) : Prop :=
  IsToken t k t ∧ (k = .ws ∨ k = .multiLineComment ∨ k = .singleLineComment)

theorem blank_delimiter {k : Kind} {t b : List Char} (h : Blank k t) : AtDelimiter (t ++ b) := by
  obtain ⟨ht, hk⟩ := h
  obtain ⟨r, hr, rfl, hm⟩ := firstRule_mem ht.2.2.1
  rcases match_start hr hm.1 with ⟨hw, _⟩ | ⟨c, rfl⟩ | ⟨_, x, rfl⟩ | ⟨rfl, _⟩
  · unfold LexRule.isWord at hw
    rcases hk with hk | hk | hk <;> (rw [hk] at hw; cases hw)
  · rcases mem_lexRules hr with hw | rfl | rfl | ⟨c', _, rfl⟩ | rfl | rfl | rfl | rfl | rfl
    · unfold LexRule.isWord at hw
      rcases hk with hk | hk | hk <;> (rw [hk] at hw; cases hw)
    · rcases hk with hk | hk | hk <;> cases hk
    · obtain ⟨c', e, hc⟩ := matches_chr.mp hm.1
      injection e with e _
      subst e
      have hmem : c ∈ (['\t', '\n', '\x0c', '\r', ' '] : List Char) := by simpa using hc
      simp only [List.mem_cons, List.not_mem_nil, or_false] at hmem
      show c ∈ delimiters
      rcases hmem with rfl | rfl | rfl | rfl | rfl <;> decide
    · rcases hk with hk | hk | hk <;> cases hk
    · obtain ⟨x, e⟩ := doc_matches.mp hm.1; simp at e
    · have e := empty_matches.mp hm.1; simp at e
    · obtain ⟨_, x, e, _⟩ := block_matches.mp hm.1; simp at e
    · obtain ⟨x, e', e, _⟩ := line_matches.mp hm.1; simp at e
    · rcases hk with hk | hk | hk <;> cases hk
  · show '/' ∈ delimiters
    decide
  · rcases hk with hk | hk | hk <;> cases hk

/-- White space and comments between two parts of a text do not change the tokens of the parts. -/
theorem blank_between {a b t : List Char} {k : Kind} (ha : Clean (lex a)) (ht : Blank k t)
    (hcr : ∀ x y, a = x ++ ['\r'] → t ++ b ≠ '\n' :: y)
    (hcr' : ∀ x y, t = x ++ ['\r'] → b ≠ '\n' :: y) :
    lex (a ++ (t ++ b)) = lex a ++ ⟨some k, t⟩ :: lex b := by
  rw [tokens_of_parts ha (blank_delimiter ht) hcr]
  congr 1
  refine lex_iff.mp (.token (isToken_separated ht.1 ?_) (lex_iff.mpr rfl))
  rcases ht.2 with rfl | rfl | rfl
  · exact .space
  · exact .block
  · exact .line hcr'

/-- So they do not change the token stream: at a place where a text can be split at all, they may be
inserted or removed. -/
theorem blank_not_significant {a b t : List Char} {k : Kind} (ha : Clean (lex a)) (ht : Blank k t)
    (hcr : ∀ x y, a = x ++ ['\r'] → t ++ b ≠ '\n' :: y)
    (hcr' : ∀ x y, t = x ++ ['\r'] → b ≠ '\n' :: y)
    (hsplit : lex (a ++ b) = lex a ++ lex b) :
    significant (lex (a ++ (t ++ b))) = significant (lex (a ++ b)) := by
  rw [blank_between ha ht hcr hcr', hsplit, significant_append, significant_append]
  congr 1
  rcases ht.2 with rfl | rfl | rfl <;> rfl

/-- The type and text of the tokens the parser and the doc comment extraction get. -/
theorem stream_is_significant (text : List Char) :
    (streamOf 0 (lex text)).map (fun t => (t.kind, t.text)) =
      (significant (lex text)).map fun x => (x.1, String.ofList x.2) :=
  streamOf_significant _ 0

/-! ## The hypotheses are met -/

/-- The pieces of a text, for the examples. -/
def shown (s : String) : List (Option Kind × String) :=
  (lex s.toList).map fun p => (p.kind, String.ofList p.text)

example : shown "int a=-0x1F;//c\r\n" = [(some (.kw "int"), "int"), (some .ws, " "),
    (some .ident, "a"), (some (.sym '='), "="), (some .int, "-0x1F"), (some (.sym ';'), ";"),
    (some .singleLineComment, "//c\r\n")] := by decide +kernel

-- Keywords are the longest match or not at all; back quotes and dots are part of names.
example : shown "intx a.int `int`" = [(some .ident, "intx"), (some .ws, " "),
    (some .ident, "a.int"), (some .ws, " "), (some .ident, "`int`")] := by decide +kernel

-- A string ends at the first quotation mark that is not escaped.
example : shown "\"a\\\"b\"\"" = [(some .string, "\"a\\\"b\""), (none, "\"")] := by decide +kernel

-- Unrecognised text.
example : shown "a #b" = [(some .ident, "a"), (some .ws, " "), (none, "#"), (some .ident, "b")] := by
  decide +kernel

example : Clean (lex "int a /* b */ = 1;".toList) := by
  intro p hp
  have h : (lex "int a /* b */ = 1;".toList).all
      (fun p => p.kind != none && p.kind != some .emptyComment) = true := by decide +kernel
  simpa using List.all_eq_true.mp h p hp

example : Blank .multiLineComment "/* b */".toList :=
  ⟨isToken_of_lex (by decide +kernel), .inr (.inl rfl)⟩

/-! ## Where layout matters -/

/-- An empty block comment is not always one: if another comment follows anywhere behind it, the
text between is part of one doc comment, and its tokens are lost. -/
theorem C40_empty_comment_swallows :
    shown "/**/ int x(); /* c */ int y();" =
      [(some .doc, "/**/ int x(); /* c */"), (some .ws, " "), (some (.kw "int"), "int"),
        (some .ws, " "), (some .ident, "y"), (some (.sym '('), "("), (some (.sym ')'), ")"),
        (some (.sym ';'), ";")] := by decide +kernel

/-- Without the second comment it is a comment. -/
theorem C40_empty_comment_alone :
    shown "/**/ int" = [(some .emptyComment, "/**/"), (some .ws, " "), (some (.kw "int"), "int")] := by
  decide +kernel

/-- A line comment on the last line needs a line break: without one, both slashes are reported as
unrecognised together with the rest of the line. -/
theorem C40_line_comment_at_end :
    shown "int // c" = [(some (.kw "int"), "int"), (some .ws, " "), (none, "// c")] := by
  decide +kernel

end Avdl.Props

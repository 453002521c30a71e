import Verif.LexerTables
import Verif.Spans
import Verif.DocComments
/-!
# The lexer

Model of the generated lexer, /repo/src/generated/idllexer.rs, run by the ANTLR runtime.  The lexer
is an automaton, serialized at lines 279-855 of that file; the rules below are its decoded form, in
the order of the token types (lines 33-89).

The runtime's algorithm: all rules run in parallel on the input; the longest match wins, among rules
with the same match the first; a rule with a non-greedy loop stops at its first match.  If no rule
matches, the text up to and including the character at which the last rule failed is reported and
skipped (the test at /repo/src/reader.rs 6897 shows such a message).  The runtime itself is not
part of the repository: this description is an assumption.
-/

namespace Avdl

/-! ## Regular expressions -/

/-- The right hand side of a lexer rule. -/
inductive Rx where
  | never
  | eps
  | chr (p : Char → Bool)
  | seq (a b : Rx)
  | alt (a b : Rx)
  | star (a : Rx)

namespace Rx

/-- Matches the empty text. -/
def nullable : Rx → Bool
  | never => false
  | eps => true
  | chr _ => false
  | seq a b => a.nullable && b.nullable
  | alt a b => a.nullable || b.nullable
  | star _ => true

/-- Sequence, `never` if one part is. -/
def mkSeq : Rx → Rx → Rx
  | never, _ => never
  | _, never => never
  | eps, b => b
  | a, b => seq a b

/-- Choice, without alternatives that are `never`. -/
def mkAlt : Rx → Rx → Rx
  | never, b => b
  | a, never => a
  | a, b => alt a b

/-- What is left to match after a character. -/
def deriv (c : Char) : Rx → Rx
  | never => never
  | eps => never
  | chr p => if p c then eps else never
  | seq a b =>
      if a.nullable then mkAlt (mkSeq (a.deriv c) b) (b.deriv c) else mkSeq (a.deriv c) b
  | alt a b => mkAlt (a.deriv c) (b.deriv c)
  | star a => mkSeq (a.deriv c) (star a)

def isNever : Rx → Bool
  | never => true
  | _ => false

/-- One given character. -/
def lit (c : Char) : Rx := chr (· == c)

/-- One of the given characters. -/
def oneOf (s : List Char) : Rx := chr fun c => s.contains c

/-- Any character but the given ones. -/
def noneOf (s : List Char) : Rx := chr fun c => !s.contains c

/-- Any character. -/
def any : Rx := chr fun _ => true

/-- All parts in order. -/
def seqs : List Rx → Rx
  | [] => eps
  | [a] => a
  | a :: as => seq a (seqs as)

/-- One of the alternatives. -/
def alts : List Rx → Rx
  | [] => never
  | [a] => a
  | a :: as => alt a (alts as)

/-- A given text. -/
def word (s : String) : Rx := seqs (s.toList.map lit)

def opt (a : Rx) : Rx := alt a eps
def plus (a : Rx) : Rx := seq a (star a)

end Rx

/-! ## Rules -/

/-- Token types, /repo/src/generated/idllexer.rs 33-89.  Keywords carry their word, signs their
character. -/
inductive Kind where
  | sub
  | doc
  | emptyComment
  | multiLineComment
  | singleLineComment
  | ws
  | kw (word : String)
  | sym (c : Char)
  | string
  | int
  | float
  | ident
deriving DecidableEq, Repr

/-- A rule; `lazy` if it has a non-greedy loop. -/
structure LexRule where
  kind : Kind
  isLazy : Bool
  rx : Rx

open Rx

/-- The keywords, token types 7 to 37. -/
def lexKeywords : List String := ["protocol", "namespace", "import", "idl", "schema", "enum",
  "fixed", "error", "record", "array", "map", "union", "boolean", "int", "long", "float", "double",
  "string", "bytes", "null", "true", "false", "decimal", "date", "time_ms", "timestamp_ms",
  "local_timestamp_ms", "uuid", "void", "oneway", "throws"]

/-- The signs, token types 38 to 53. -/
def lexSigns : List Char := "(){}[]:;,@=.-?<>".toList

/-- `Digit`. -/
def digitRx : Rx := oneOf ['0', '1', '2', '3', '4', '5', '6', '7', '8', '9']
/-- `HexDigit`. -/
def hexDigitRx : Rx :=
  oneOf ['0', '1', '2', '3', '4', '5', '6', '7', '8', '9', 'A', 'B', 'C', 'D', 'E', 'F', 'a', 'b',
    'c', 'd', 'e', 'f']
/-- `OctDigit`. -/
def octDigitRx : Rx := oneOf ['0', '1', '2', '3', '4', '5', '6', '7']
/-- The suffixes of floating point literals. -/
def floatSuffixRx : Rx := oneOf ['D', 'F', 'd', 'f']
/-- A sign. -/
def plusMinusRx : Rx := oneOf ['+', '-']

/-- `StringLiteral`: the class of plain characters contains the quotation mark; the loop is not
greedy. -/
def stringRx : Rx :=
  seqs [lit '"',
    star (alts [noneOf ['\x08', '\t', '\n', '\x0c', '\r', '\\'],
      seq (lit '\\') (alts [oneOf ['"', '\'', '\\', 'b', 'f', 'n', 'r', 't'],
        seq octDigitRx (opt octDigitRx),
        seqs [oneOf ['0', '1', '2', '3'], octDigitRx, octDigitRx],
        seqs [lit 'u', hexDigitRx, hexDigitRx, hexDigitRx, hexDigitRx]])]),
    lit '"']

/-- `IntegerLiteral`. -/
def intRx : Rx :=
  seqs [opt (lit '-'),
    alts [seq (oneOf ['1', '2', '3', '4', '5', '6', '7', '8', '9']) (star digitRx),
      seqs [lit '0', oneOf ['X', 'x'], plus hexDigitRx],
      seq (lit '0') (star octDigitRx)],
    opt (oneOf ['L', 'l'])]

/-- `DecimalExponent`. -/
def decimalExponentRx : Rx := seqs [oneOf ['E', 'e'], opt plusMinusRx, plus digitRx]

/-- `DecimalFloatingPointLiteral`. -/
def decimalFloatRx : Rx :=
  alt
    (seqs [alt (seqs [plus digitRx, lit '.', star digitRx]) (seq (lit '.') (plus digitRx)),
      opt decimalExponentRx, opt floatSuffixRx])
    (seq (plus digitRx) (alt (seq decimalExponentRx (opt floatSuffixRx)) floatSuffixRx))

/-- `HexadecimalFloatingPointLiteral`. -/
def hexFloatRx : Rx :=
  seqs [lit '0', oneOf ['X', 'x'],
    alt (seq (plus hexDigitRx) (opt (lit '.')))
      (seqs [star hexDigitRx, lit '.', plus hexDigitRx]),
    seqs [oneOf ['P', 'p'], opt plusMinusRx, plus digitRx], opt floatSuffixRx]

/-- `FloatingPointLiteral`. -/
def floatRx : Rx :=
  seq (opt plusMinusRx) (alts [word "NaN", word "Infinity", decimalFloatRx, hexFloatRx])

/-- `IdentifierPart`. -/
def identPartRx : Rx := seq (chr isIdentStart) (star (chr isIdentPart))

/-- An identifier part, possibly between back quotes. -/
def quotedPartRx : Rx := alt (seqs [lit '`', identPartRx, lit '`']) identPartRx

/-- `IdentifierToken`. -/
def identRx : Rx := seq quotedPartRx (star (seq (oneOf ['-', '.']) quotedPartRx))

/-- The rules that are neither keywords nor signs and come before them. -/
def spaceRules : List LexRule := [
  ⟨.sub, false, lit '\x1a'⟩,
  ⟨.doc, true, seqs [word "/**", star any, word "*/"]⟩,
  ⟨.emptyComment, false, word "/**/"⟩,
  ⟨.multiLineComment, true, seqs [word "/*", noneOf ['*'], star any, word "*/"]⟩,
  -- The loop of this rule is over any character and not greedy: it ends at the first line break.
  ⟨.singleLineComment, false, seqs [word "//", star (noneOf ['\n', '\r']),
    alt (lit '\n') (seq (lit '\r') (opt (lit '\n')))]⟩,
  ⟨.ws, false, oneOf ['\t', '\n', '\x0c', '\r', ' ']⟩]

/-- The rules, in order. -/
def lexRules : List LexRule :=
  spaceRules ++ lexKeywords.map (fun w => ⟨.kw w, false, word w⟩) ++
  lexSigns.map (fun c => ⟨.sym c, false, lit c⟩) ++
  [⟨.string, true, stringRx⟩, ⟨.int, false, intRx⟩, ⟨.float, false, floatRx⟩,
    ⟨.ident, false, identRx⟩]

/-! ## Matching -/

/-- A rule after a character: a lazy rule that has matched is over. -/
def LexRule.step (c : Char) (r : LexRule) : Option LexRule :=
  if r.isLazy && r.rx.nullable then none
  else
    let rx := r.rx.deriv c
    if rx.isNever then none else some { r with rx }

/-- The first rule that has matched. -/
def accepted : List LexRule → Option Kind
  | [] => none
  | r :: rs => if r.rx.nullable then some r.kind else accepted rs

/-- Runs the rules on the input until all have failed or the input ends.  `n` is the number of
characters read, `last` the last match; without a match the result is the number of characters to
skip. -/
def scan : List LexRule → List Char → Nat → Option (Kind × Nat) → Option Kind × Nat
  | _, [], n, last =>
      match last with
      | some (k, m) => (some k, m)
      | none => (none, n)
  | rs, c :: cs, n, last =>
      match rs.filterMap (·.step c) with
      | [] =>
          match last with
          | some (k, m) => (some k, m)
          | none => (none, n + 1)
      | rs' =>
          let last := match accepted rs' with
            | some k => some (k, n + 1)
            | none => last
          scan rs' cs (n + 1) last

/-- The next token of a non-empty input: its type, `none` if no rule matches, and its length. -/
def lexOne (cs : List Char) : Option Kind × Nat := scan lexRules cs 0 none

/-- A piece of the source: a token, skipped text or unrecognised text. -/
structure Piece where
  kind : Option Kind
  text : List Char
deriving DecidableEq, Repr

/-- The pieces of a text, with fuel. -/
def lexFuel : Nat → List Char → List Piece
  | 0, _ => []
  | _, [] => []
  | n + 1, c :: cs =>
      ⟨(lexOne (c :: cs)).1, (c :: cs).take (lexOne (c :: cs)).2⟩ ::
        lexFuel n ((c :: cs).drop (lexOne (c :: cs)).2)

/-- The pieces of a text. -/
def lex (cs : List Char) : List Piece := lexFuel cs.length cs

/-! ## The token stream -/

/-- A token of the stream with the byte offset of its first character. -/
structure LexToken where
  kind : Kind
  text : String
  offset : Nat
deriving DecidableEq, Repr

/-- Rules whose matches are skipped: the action of the automaton is `skip`; doc comments stay in
the stream, on the hidden channel. -/
def Kind.skipped : Kind → Bool
  | .emptyComment | .multiLineComment | .singleLineComment | .ws => true
  | _ => false

/-- The tokens of a list of pieces that begins at a byte offset. -/
def streamOf (offset : Nat) : List Piece → List LexToken
  | [] => []
  | p :: ps =>
      match p.kind with
      | some k =>
          if k.skipped then streamOf (offset + utf8Len p.text) ps
          else ⟨k, String.ofList p.text, offset⟩ :: streamOf (offset + utf8Len p.text) ps
      | none => streamOf (offset + utf8Len p.text) ps

/-- The unrecognised texts. -/
def lexErrors (ps : List Piece) : List (List Char) :=
  ps.filterMap fun p => match p.kind with
    | some _ => none
    | none => some p.text

/-- Line and column behind a text, as the lexer counts them: `\n` ends a line, any other character
is a column. -/
def advance : Nat × Nat → List Char → Nat × Nat
  | at_, [] => at_
  | at_, c :: cs => advance (if c = '\n' then (at_.1 + 1, 0) else (at_.1, at_.2 + 1)) cs

/-- Cutting the input at U+001A, /repo/src/reader.rs 2020-2024. -/
def cutAtSub (cs : List Char) : List Char := cs.takeWhile (· != '\x1a')

end Avdl

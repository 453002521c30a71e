import Verif.Spec.Lexing
/-!
# The texts of tokens

What each kind of token looks like, without regular expressions and without the rules of the
lexer: an independent specification of the vocabulary of the language, for C39.  Only the kinds are
shared with the model, and the two tables of characters of names (Verif/LexerTables.lean).
-/

namespace Avdl.Spec.Tokens

/-- The reserved words. -/
def reserved : List String :=
  -- declarations
  ["protocol", "namespace", "import", "idl", "schema", "record", "error", "enum", "fixed",
  -- messages
   "void", "oneway", "throws",
  -- types
   "array", "map", "union", "boolean", "int", "long", "float", "double", "string", "bytes", "null",
   "decimal", "date", "time_ms", "timestamp_ms", "local_timestamp_ms", "uuid",
  -- values
   "true", "false"]

/-- The signs. -/
def signs : List Char :=
  ['(', ')', '{', '}', '[', ']', '<', '>', ':', ';', ',', '@', '=', '.', '-', '?']

/-- White space. -/
def spaces : List Char := [' ', '\t', '\n', '\r', '\x0c']

/-! ## Comments -/

/-- `*/` does not occur before the end of `x` followed by `*/`. -/
def EndsOnlyThere (x : List Char) : Prop := ¬ ∃ a b, x ++ ['*'] = a ++ '*' :: '/' :: b

/-- A line break. -/
def lineEnds : List (List Char) := [['\n'], ['\r'], ['\r', '\n']]

/-! ## Names -/

/-- A part of a name: a letter and letters or digits. -/
inductive NamePart : List Char → Prop
  | mk {c cs} : isIdentStart c = true → (∀ d ∈ cs, isIdentPart d = true) → NamePart (c :: cs)

/-- A part of a name, possibly in back quotes. -/
inductive QuotedPart : List Char → Prop
  | plain {p} : NamePart p → QuotedPart p
  | quoted {p} : NamePart p → QuotedPart ('`' :: p ++ ['`'])

/-- Parts with dots or dashes between them. -/
inductive NameText : List Char → Prop
  | one {p} : QuotedPart p → NameText p
  | more {p s rest} : QuotedPart p → s = '.' ∨ s = '-' → NameText rest → NameText (p ++ s :: rest)

/-! ## Numbers -/

/-- A decimal digit. -/
def Dec (c : Char) : Prop := 48 ≤ c.toNat ∧ c.toNat ≤ 57
/-- An octal digit. -/
def Oct (c : Char) : Prop := 48 ≤ c.toNat ∧ c.toNat ≤ 55
/-- A hexadecimal digit. -/
def Hex (c : Char) : Prop :=
  Dec c ∨ (65 ≤ c.toNat ∧ c.toNat ≤ 70) ∨ (97 ≤ c.toNat ∧ c.toNat ≤ 102)

/-- Any number of digits. -/
def All (digit : Char → Prop) (cs : List Char) : Prop := ∀ c ∈ cs, digit c
/-- At least one digit. -/
def Some' (digit : Char → Prop) (cs : List Char) : Prop := cs ≠ [] ∧ All digit cs

/-- The digits of an integer: without leading zero, in hexadecimal after `0x`, or in octal after
`0`. -/
inductive IntBody : List Char → Prop
  | decimal {c cs} : Dec c → c ≠ '0' → All Dec cs → IntBody (c :: cs)
  | hex {x cs} : x = 'x' ∨ x = 'X' → Some' Hex cs → IntBody ('0' :: x :: cs)
  | octal {cs} : All Oct cs → IntBody ('0' :: cs)

/-- A minus sign or nothing, digits, `L` or nothing. -/
def IntText (w : List Char) : Prop :=
  ∃ sign body long, w = sign ++ body ++ long ∧ sign ∈ [[], ['-']] ∧ IntBody body ∧
    long ∈ [[], ['l'], ['L']]

/-- A sign or nothing. -/
def anySign : List (List Char) := [[], ['-'], ['+']]

/-- An exponent after the letter `e`, or `p` in hexadecimal numbers. -/
def Exponent (letters : List Char) (w : List Char) : Prop :=
  ∃ l sign cs, w = l :: sign ++ cs ∧ l ∈ letters ∧ sign ∈ anySign ∧ Some' Dec cs

/-- The suffix of a floating point number. -/
def floatLetters : List Char := ['f', 'F', 'd', 'D']

/-- A suffix or nothing. -/
def Suffix (w : List Char) : Prop := w = [] ∨ ∃ s, w = [s] ∧ s ∈ floatLetters

/-- A decimal floating point number: with a point, an exponent or a suffix. -/
inductive DecFloat : List Char → Prop
  | point {a b e s} : All Dec a → All Dec b → (a ≠ [] ∨ b ≠ []) → (e = [] ∨ Exponent ['e', 'E'] e) →
      Suffix s → DecFloat (a ++ '.' :: b ++ e ++ s)
  | exponent {a e s} : Some' Dec a → Exponent ['e', 'E'] e → Suffix s → DecFloat (a ++ e ++ s)
  | suffix {a s} : Some' Dec a → s ∈ floatLetters → DecFloat (a ++ [s])

/-- A hexadecimal floating point number: digits, with a point between, before or after them, and an
exponent. -/
inductive HexFloat : List Char → Prop
  | plain {x a p e s} : x = 'x' ∨ x = 'X' → Some' Hex a → p ∈ [[], ['.']] →
      Exponent ['p', 'P'] e → Suffix s → HexFloat ('0' :: x :: a ++ p ++ e ++ s)
  | point {x a b e s} : x = 'x' ∨ x = 'X' → All Hex a → Some' Hex b → Exponent ['p', 'P'] e →
      Suffix s → HexFloat ('0' :: x :: a ++ '.' :: b ++ e ++ s)

/-- A sign or nothing, then `NaN`, `Infinity` or a number. -/
def FloatText (w : List Char) : Prop :=
  ∃ sign body, w = sign ++ body ∧ sign ∈ anySign ∧
    (body = "NaN".toList ∨ body = "Infinity".toList ∨ DecFloat body ∨ HexFloat body)

/-! ## Strings -/

/-- A character of a string literal, as written. -/
inductive StringChar : List Char → Prop
  | plain {c} : c ∉ ['"', '\\', '\n', '\r', '\t', '\x08', '\x0c'] → StringChar [c]
  | named {c} : c ∈ ['"', '\'', '\\', 'b', 'f', 'n', 'r', 't'] → StringChar ['\\', c]
  | oct1 {a} : Oct a → StringChar ['\\', a]
  | oct2 {a b} : Oct a → Oct b → StringChar ['\\', a, b]
  | oct3 {a b c} : a ∈ ['0', '1', '2', '3'] → Oct b → Oct c → StringChar ['\\', a, b, c]
  | unicode {a b c d} : Hex a → Hex b → Hex c → Hex d → StringChar ['\\', 'u', a, b, c, d]

/-- The inside of a string literal. -/
inductive StringChars : List Char → Prop
  | nil : StringChars []
  | cons {c cs} : StringChar c → StringChars cs → StringChars (c ++ cs)

/-! ## Tokens -/

/-- The texts of each kind of token. -/
inductive TokenText : Kind → List Char → Prop
  | keyword {w} : w ∈ reserved → TokenText (.kw w) w.toList
  | sign {c} : c ∈ signs → TokenText (.sym c) [c]
  | name {w} : NameText w → TokenText .ident w
  | int {w} : IntText w → TokenText .int w
  | float {w} : FloatText w → TokenText .float w
  | string {cs} : StringChars cs → TokenText .string ('"' :: cs ++ ['"'])
  | space {c} : c ∈ spaces → TokenText .ws [c]
  | doc {x} : EndsOnlyThere x → TokenText .doc ('/' :: '*' :: '*' :: x ++ ['*', '/'])
  | empty : TokenText .emptyComment ['/', '*', '*', '/']
  | block {c x} : c ≠ '*' → EndsOnlyThere x →
      TokenText .multiLineComment ('/' :: '*' :: c :: x ++ ['*', '/'])
  | line {x e} : '\n' ∉ x → '\r' ∉ x → e ∈ lineEnds →
      TokenText .singleLineComment ('/' :: '/' :: x ++ e)
  | endMark : TokenText .sub ['\x1a']

/-- `w` is the longest beginning of the input that is the text of a token, and of kind `k`.  A
reserved word is not a name, nor are `NaN` and `Infinity`. -/
def FirstToken (input : List Char) (k : Kind) (w : List Char) : Prop :=
  w <+: input ∧ TokenText k w ∧
  (k = .ident → (∀ r ∈ reserved, w ≠ r.toList) ∧ w ≠ "NaN".toList ∧ w ≠ "Infinity".toList) ∧
  ∀ k' v, TokenText k' v → v <+: input → v.length ≤ w.length

/-- The text can be continued to that of a token. -/
def Beginning (v : List Char) : Prop := ∃ k x, TokenText k (v ++ x)

/-- The input begins with no token; `w` is its shortest beginning with which no token begins, or
all of it. -/
def NoToken (input w : List Char) : Prop :=
  w ≠ [] ∧ w <+: input ∧ (∀ k v, TokenText k v → ¬ v <+: input) ∧
  (∀ v, v <+: w → v ≠ w → Beginning v) ∧ (w = input ∨ ¬ Beginning w)

/-- The tokens of a text from left to right, with the parts that are none. -/
inductive Cut : List Char → List Piece → Prop
  | done : Cut [] []
  | token {k w rest ps} : FirstToken (w ++ rest) k w → Cut rest ps →
      Cut (w ++ rest) (⟨some k, w⟩ :: ps)
  | skipped {w rest ps} : NoToken (w ++ rest) w → Cut rest ps → Cut (w ++ rest) (⟨none, w⟩ :: ps)

end Avdl.Spec.Tokens

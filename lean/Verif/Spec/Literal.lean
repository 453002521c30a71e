/-!
# Specification of literals

What the lexer's integer and string tokens denote, written without reference to the reader's
parsing functions.  The token shapes are those of the generated lexer
(/repo/src/generated/idllexer.rs, rules `IntegerLiteral`, `StringLiteral`), extended with the
digit-group underscores and repeated `u`s that the reader also supports.
-/

namespace Avdl.Spec

/-- `c` is the digit of value `d` in radix `r` (at most 16). -/
def IsDigit (r : Nat) (c : Char) (d : Nat) : Prop :=
  d < r ∧ ("0123456789abcdef".toList[d]? = some c ∨ "0123456789ABCDEF".toList[d]? = some c)

/-- A digit string and its positional value in radix `r`. -/
inductive Digits (r : Nat) : List Char → Nat → Prop where
  | nil : Digits r [] 0
  | cons {c : Char} {cs : List Char} {d v : Nat} :
      IsDigit r c d → Digits r cs v → Digits r (c :: cs) (d * r ^ cs.length + v)

/-- How a magnitude is written. -/
inductive Notation where
  | decimal
  | hex
  | octal
deriving DecidableEq

/-- A magnitude in one of the three notations and its value. -/
inductive Magnitude : Notation → List Char → Nat → Prop where
  | decimal {c cs v} : c ≠ '0' → Digits 10 (c :: cs) v → Magnitude .decimal (c :: cs) v
  | hex {x cs v} : x = 'x' ∨ x = 'X' → cs ≠ [] → Digits 16 cs v →
      Magnitude .hex ('0' :: x :: cs) v
  | octal {cs v} : Digits 8 cs v → Magnitude .octal ('0' :: cs) v

/-- An integer token: underscores apart, an optional minus sign, a magnitude and an optional
`l`/`L`. -/
def IntegerToken (text : String) (n : Notation) (negative long : Bool) (mag : Nat) : Prop :=
  ∃ body suffix, Magnitude n body mag ∧
    (if long then suffix = ['l'] ∨ suffix = ['L'] else suffix = []) ∧
    text.toList.filter (· ≠ '_') = (if negative then ['-'] else []) ++ body ++ suffix

/-- The number an integer token denotes. -/
def denoted (negative : Bool) (mag : Nat) : Int := if negative then -(mag : Int) else (mag : Int)

/-- Fits a signed 64-bit integer. -/
def FitsI64 (v : Int) : Prop := -(2 ^ 63) ≤ v ∧ v < 2 ^ 63

/-! ## Strings -/

/-- The single-character escapes. -/
def namedEscapes : List (Char × Char) :=
  [('n', '\n'), ('r', '\r'), ('t', '\t'), ('b', '\x08'), ('f', '\x0c'), ('\\', '\\'), ('"', '"'),
   ('\'', '\'')]

/-- The next character of the text is not an octal digit. -/
def NoOctalNext (e : List Char) : Prop := ∀ c e', e = c :: e' → ∀ d, ¬ IsDigit 8 c d

/-- UTF-16 code unit `v` is a high (leading) surrogate. -/
def High (v : Nat) : Prop := 0xD800 ≤ v ∧ v ≤ 0xDBFF

/-- UTF-16 code unit `v` is a low (trailing) surrogate. -/
def Low (v : Nat) : Prop := 0xDC00 ≤ v ∧ v ≤ 0xDFFF

/-- The text of a unicode escape with code unit `v`: a backslash, one or more `u`, four
hexadecimal digits. -/
def UnicodeEscape (e : List Char) (v : Nat) : Prop :=
  ∃ k hex, hex.length = 4 ∧ Digits 16 hex v ∧ e = '\\' :: 'u' :: (List.replicate k 'u' ++ hex)

/-- The last four characters, shown after a single `\u`: what remains of an escape that denotes
no character. -/
def rawEscape (e : List Char) : List Char := '\\' :: 'u' :: e.drop (e.length - 4)

/-- `Decodes e s`: the escaped text `e` denotes the string `s`. -/
inductive Decodes : List Char → List Char → Prop where
  | nil : Decodes [] []
  /-- any character but a backslash stands for itself -/
  | plain {c e s} : c ≠ '\\' → Decodes e s → Decodes (c :: e) (c :: s)
  /-- a named escape -/
  | named {k c e s} : (k, c) ∈ namedEscapes → Decodes e s → Decodes ('\\' :: k :: e) (c :: s)
  /-- an octal escape takes as many octal digits as stay below 256 -/
  | oct1 {a v e s} : Digits 8 [a] v → NoOctalNext e → Decodes e s →
      Decodes ('\\' :: a :: e) (Char.ofNat v :: s)
  | oct2 {a b v e s} : Digits 8 [a, b] v → (a ∈ ['4', '5', '6', '7'] ∨ NoOctalNext e) →
      Decodes e s → Decodes ('\\' :: a :: b :: e) (Char.ofNat v :: s)
  | oct3 {a b c v e s} : Digits 8 [a, b, c] v → v < 256 → Decodes e s →
      Decodes ('\\' :: a :: b :: c :: e) (Char.ofNat v :: s)
  /-- a unicode escape outside the surrogate range -/
  | unicode {u v e s} : UnicodeEscape u v → ¬ High v → ¬ Low v → Decodes e s →
      Decodes (u ++ e) (Char.ofNat v :: s)
  /-- a surrogate pair -/
  | pair {u h w l e s} : UnicodeEscape u h → High h → UnicodeEscape w l → Low l → Decodes e s →
      Decodes (u ++ w ++ e) (Char.ofNat (0x10000 + (h - 0xD800) * 0x400 + (l - 0xDC00)) :: s)
  /-- an unpaired surrogate denotes no character and is kept as written -/
  | loneHigh {u h e s} : UnicodeEscape u h → High h →
      (∀ w l e', UnicodeEscape w l → Low l → e ≠ w ++ e') → Decodes e s →
      Decodes (u ++ e) (rawEscape u ++ s)
  | loneLow {u l e s} : UnicodeEscape u l → Low l → Decodes e s →
      Decodes (u ++ e) (rawEscape u ++ s)

/-- The text between the quotes of a string token, as the lexer's `StringLiteral` rule has it. -/
inductive StringBody : List Char → Prop where
  | nil : StringBody []
  | plain {c e} : c ≠ '\\' → StringBody e → StringBody (c :: e)
  | named {k c e} : (k, c) ∈ namedEscapes → StringBody e → StringBody ('\\' :: k :: e)
  | oct1 {a v e} : Digits 8 [a] v → StringBody e → StringBody ('\\' :: a :: e)
  | oct2 {a b v e} : Digits 8 [a, b] v → StringBody e → StringBody ('\\' :: a :: b :: e)
  | oct3 {a b c v e} : Digits 8 [a, b, c] v → v < 256 → StringBody e →
      StringBody ('\\' :: a :: b :: c :: e)
  | unicode {u v e} : UnicodeEscape u v → StringBody e → StringBody (u ++ e)

end Avdl.Spec

import Verif.Json
/-!
# Literals

String, integer and floating-point literals.  Model of /repo/src/reader.rs 3800-4204.
-/

namespace Avdl

/-- `identifier_text`, /repo/src/reader.rs 3802-3807: backticks are removed. -/
def identifierText (raw : String) : String := String.ofList (raw.toList.filter (· ≠ '`'))

/-! ## String literals -/

/-- `char::to_digit(radix)` for radices up to 16. -/
def digitVal (radix : Nat) (c : Char) : Option Nat :=
  let v :=
    if '0' ≤ c ∧ c ≤ '9' then some (c.toNat - 48)
    else if 'a' ≤ c ∧ c ≤ 'f' then some (c.toNat - 87)
    else if 'A' ≤ c ∧ c ≤ 'F' then some (c.toNat - 55)
    else none
  match v with
  | some d => if d < radix then some d else none
  | none => none

/-- The digit loop of `from_str_radix`: value of a digit sequence, accumulated from the left.
Simplification: overflow is checked on the final value (the accumulation is monotone, so the
outcome is the same). -/
def digitsFrom (radix : Nat) : Nat → List Char → Option Nat
  | acc, [] => some acc
  | acc, c :: cs =>
      match digitVal radix c with
      | some d => digitsFrom radix (acc * radix + d) cs
      | none => none

/-- A non-empty digit sequence. -/
def parseDigits (radix : Nat) : List Char → Option Nat
  | [] => none
  | cs => digitsFrom radix 0 cs

/-- `u32::from_str_radix`: an optional `+`, then digits, at most `u32::MAX`. -/
def u32FromStrRadix (radix : Nat) (cs : List Char) : Option Nat :=
  let v := match cs with
    | '+' :: ds => parseDigits radix ds
    | ds => parseDigits radix ds
  match v with
  | some n => if n < 2 ^ 32 then some n else none
  | none => none

/-- `i64::from_str_radix`: an optional sign, then digits, within range. -/
def i64FromStrRadix (radix : Nat) (cs : List Char) : Option Int :=
  match cs with
  | '-' :: ds =>
      match parseDigits radix ds with
      | some n => if n ≤ 2 ^ 63 then some (-(n : Int)) else none
      | none => none
  | '+' :: ds =>
      match parseDigits radix ds with
      | some n => if n < 2 ^ 63 then some (n : Int) else none
      | none => none
  | ds =>
      match parseDigits radix ds with
      | some n => if n < 2 ^ 63 then some (n : Int) else none
      | none => none

/-- `char::from_u32`: no surrogates, at most 0x10FFFF.  (Here and below a lower bound `a ≤ n` is
written `¬ n ≤ a - 1`, which keeps the kernel from unfolding large literals.) -/
def charFromU32 (n : Nat) : Option Char :=
  if n ≤ 0xD7FF ∨ (¬ n ≤ 0xDFFF ∧ n ≤ 0x10FFFF) then some (Char.ofNat n) else none

/-- Skipping repeated `u`s, /repo/src/reader.rs 3842-3844 and 3953-3955. -/
def skipU : List Char → List Char
  | 'u' :: cs => skipU cs
  | cs => cs

/-- `(0xD800..=0xDBFF).contains(&n)`. -/
def isHighSurrogate (n : Nat) : Bool := !decide (n ≤ 0xD7FF) && decide (n ≤ 0xDBFF)

/-- `(0xDC00..=0xDFFF).contains(&n)`. -/
def isLowSurrogate (n : Nat) : Bool := !decide (n ≤ 0xDBFF) && decide (n ≤ 0xDFFF)

/-- The code point of a surrogate pair, /repo/src/reader.rs 3853-3855. -/
def combineSurrogates (high low : Nat) : Nat := (high - 0xD800) * 0x400 + (low - 0xDC00) + 0x10000

/-- `try_parse_low_surrogate`, /repo/src/reader.rs 3932-3970: the code point and the remaining
characters, or `none` with the input untouched.  `hex.len() != 4` counts bytes in the code; four
characters that parse as hexadecimal are four bytes, so counting characters gives the same
result. -/
def tryParseLowSurrogate : List Char → Option (Nat × List Char)
  | '\\' :: 'u' :: cs =>
      let rest := skipU cs
      let hex := rest.take 4
      if hex.length ≠ 4 then none
      else match u32FromStrRadix 16 hex with
        | some low => if isLowSurrogate low then some (low, rest.drop 4) else none
        | none => none
  | _ => none

/-- Push the decoded character or else the raw escape text. -/
def charOrRaw (raw : List Char) : Option Char → List Char
  | some ch => [ch]
  | none => raw

/-- After a high surrogate, /repo/src/reader.rs 3850-3867: the pair if a low surrogate follows, or
else the raw escape. -/
def decodePair (raw : List Char) (cp : Nat) (after : List Char) :
    Option (Nat × List Char) → List Char × List Char
  | some (low, after') => (charOrRaw raw (charFromU32 (combineSurrogates cp low)), after')
  | none => (raw, after)

/-- The branch for `\u`, /repo/src/reader.rs 3845-3877, after the `u`s: `hex` are the next four
characters, `after` the remaining ones.  Output and remaining input. -/
def decodeUnicode (hex after : List Char) : List Char × List Char :=
  match u32FromStrRadix 16 hex with
  | none => ('\\' :: 'u' :: hex, after)
  | some cp =>
      if isHighSurrogate cp then decodePair ('\\' :: 'u' :: hex) cp after (tryParseLowSurrogate after)
      else (charOrRaw ('\\' :: 'u' :: hex) (charFromU32 cp), after)

/-- The branch for `\u`, /repo/src/reader.rs 3838-3877. -/
def unicodeEscape (cs : List Char) : List Char × List Char :=
  decodeUnicode ((skipU cs).take 4) ((skipU cs).drop 4)

/-- Octal digit test `('0'..='7').contains(&c)`. -/
def isOct (c : Char) : Bool := '0' ≤ c && c ≤ '7'

/-- Collecting one to three octal digits, /repo/src/reader.rs 3885-3900; `c2` is the first. -/
def takeOctal (c2 : Char) : List Char → List Char × List Char
  | [] => ([c2], [])
  | n1 :: cs1 =>
      if isOct n1 then
        match cs1 with
        | [] => ([c2, n1], [])
        | n2 :: cs2 =>
            if c2 ≤ '3' ∧ isOct n2 then ([c2, n1, n2], cs2) else ([c2, n1], n2 :: cs2)
      else ([c2], n1 :: cs1)

/-- The branch for octal escapes, /repo/src/reader.rs 3878-3911: output and remaining input.
`c2` is the first digit. -/
def octalEscape (c2 : Char) (cs : List Char) : List Char × List Char :=
  let octal := (takeOctal c2 cs).1
  let rest := (takeOctal c2 cs).2
  match u32FromStrRadix 8 octal with
  | some v => (charOrRaw ('\\' :: octal) (charFromU32 v), rest)
  | none => ('\\' :: octal, rest)

/-- One escape sequence after the backslash, /repo/src/reader.rs 3828-3917. -/
def escapeStep : List Char → List Char × List Char
  | 'n' :: cs => (['\n'], cs)
  | 'r' :: cs => (['\r'], cs)
  | 't' :: cs => (['\t'], cs)
  | 'b' :: cs => (['\x08'], cs)
  | 'f' :: cs => (['\x0c'], cs)
  | '\\' :: cs => (['\\'], cs)
  | '"' :: cs => (['"'], cs)
  | '\'' :: cs => (['\''], cs)
  | 'u' :: cs => unicodeEscape cs
  | c2 :: cs => if isOct c2 then octalEscape c2 cs else (['\\', c2], cs)
  | [] => (['\\'], [])

theorem skipU_length (cs : List Char) : (skipU cs).length ≤ cs.length := by
  fun_induction skipU cs with
  | case1 cs ih => simp; omega
  | case2 => simp

theorem tryParseLowSurrogate_length {cs : List Char} {n : Nat} {r : List Char}
    (h : tryParseLowSurrogate cs = some (n, r)) : r.length ≤ cs.length := by
  unfold tryParseLowSurrogate at h
  split at h
  · rename_i cs
    have := skipU_length cs
    simp only at h
    split at h
    · cases h
    · split at h
      · split at h
        · cases h; simp; omega
        · cases h
      · cases h
  · cases h

theorem decodeUnicode_length (hex after : List Char) :
    (decodeUnicode hex after).2.length ≤ after.length := by
  rw [decodeUnicode]
  cases u32FromStrRadix 16 hex with
  | none => exact Nat.le_refl _
  | some cp =>
    simp only
    split
    · cases hl : tryParseLowSurrogate after with
      | some p => exact tryParseLowSurrogate_length hl
      | none => exact Nat.le_refl _
    · exact Nat.le_refl _

theorem unicodeEscape_length (cs : List Char) : (unicodeEscape cs).2.length ≤ cs.length := by
  have h := skipU_length cs
  have h2 := decodeUnicode_length ((skipU cs).take 4) ((skipU cs).drop 4)
  unfold unicodeEscape
  simp only [List.length_drop] at h2
  omega

theorem takeOctal_length (c : Char) (cs : List Char) :
    (takeOctal c cs).2.length ≤ cs.length := by
  unfold takeOctal
  split
  · simp
  · split
    · split
      · simp
      · split <;> (simp only [List.length_cons]; omega)
    · simp

theorem octalEscape_length (c : Char) (cs : List Char) :
    (octalEscape c cs).2.length ≤ cs.length := by
  have := takeOctal_length c cs
  unfold octalEscape
  simp only
  split <;> exact this

theorem escapeStep_length (cs : List Char) : (escapeStep cs).2.length ≤ cs.length := by
  unfold escapeStep
  split
  all_goals try (simp only [List.length_cons]; omega)
  · rename_i cs; have := unicodeEscape_length cs; simp only [List.length_cons]; omega
  · rename_i c cs _ _ _ _ _ _ _ _ _
    have := octalEscape_length c cs
    split <;> (simp only [List.length_cons]; omega)

/-- The loop of `unescape_java`, /repo/src/reader.rs 3821-3924, on character lists.  Each step
consumes at least one character, so the length of the text bounds the number of steps. -/
def unescapeFuel : Nat → List Char → List Char
  | 0, _ => []
  | _ + 1, [] => []
  | n + 1, c :: cs =>
      if c = '\\' then (escapeStep cs).1 ++ unescapeFuel n (escapeStep cs).2
      else c :: unescapeFuel n cs

/-- `unescape_java`, /repo/src/reader.rs 3821-3924. -/
def unescapeJava (cs : List Char) : List Char := unescapeFuel cs.length cs

theorem unescapeFuel_mono (n : Nat) : ∀ m cs, cs.length ≤ n → cs.length ≤ m →
    unescapeFuel n cs = unescapeFuel m cs := by
  induction n with
  | zero =>
    intro m cs h1 h2
    cases cs with
    | nil => cases m <;> rfl
    | cons => simp at h1
  | succ n ih =>
    intro m cs h1 h2
    cases cs with
    | nil => cases m <;> rfl
    | cons c cs =>
      cases m with
      | zero => simp at h2
      | succ m =>
        have := escapeStep_length cs
        simp only [List.length_cons] at h1 h2
        simp only [unescapeFuel]
        rw [ih m _ (by omega) (by omega), ih m cs (by omega) (by omega)]

theorem unescapeJava_nil : unescapeJava [] = [] := rfl

theorem unescapeJava_cons (c : Char) (cs : List Char) :
    unescapeJava (c :: cs) =
      if c = '\\' then (escapeStep cs).1 ++ unescapeJava (escapeStep cs).2
      else c :: unescapeJava cs := by
  have := escapeStep_length cs
  unfold unescapeJava
  simp only [List.length_cons, unescapeFuel]
  rw [unescapeFuel_mono cs.length (escapeStep cs).2.length _ this (Nat.le_refl _)]

/-- `get_string_from_literal`, /repo/src/reader.rs 3811-3818.  Simplification: the code slices
bytes 1..len-1 if there are at least two bytes; the lexer's literals start and end with an ASCII
quote, so characters are counted instead. -/
def getStringFromLiteral (raw : String) : String :=
  if raw.toList.length < 2 then raw
  else String.ofList (unescapeJava (raw.toList.tail.dropLast))

/-! ## Integer literals -/

/-- `text.replace('_', "")`. -/
def dropUnderscores (cs : List Char) : List Char := cs.filter (· ≠ '_')

/-- Removing the `l`/`L` suffix, /repo/src/reader.rs 3981-3986. -/
def dropLongSuffix (cs : List Char) : List Char :=
  match cs.getLast? with
  | some 'l' | some 'L' => cs.dropLast
  | _ => cs

/-- The branches of `parse_integer_literal`, /repo/src/reader.rs 3990-4012. -/
def parseIntegerBody (number : List Char) : Option Int :=
  match number with
  | '0' :: 'x' :: hex | '0' :: 'X' :: hex => i64FromStrRadix 16 hex
  | '-' :: '0' :: 'x' :: hex | '-' :: '0' :: 'X' :: hex => (i64FromStrRadix 16 hex).map (- ·)
  | '0' :: c :: cs =>
      if ('0' :: c :: cs).contains '.' then i64FromStrRadix 10 ('0' :: c :: cs)
      else i64FromStrRadix 8 ('0' :: c :: cs)
  | '-' :: '0' :: c :: cs =>
      if ('0' :: c :: cs).contains '.' then i64FromStrRadix 10 ('-' :: '0' :: c :: cs)
      else (i64FromStrRadix 8 ('0' :: c :: cs)).map (- ·)
  | cs => i64FromStrRadix 10 cs

/-- `parse_integer_literal`, /repo/src/reader.rs 3977-4023.  The `i32`/`i64` distinction at the
end yields the same `serde_json::Number`.  (In the negative hex/octal branches `-abs` cannot
overflow: `abs` is never `i64::MIN` since the lexer does not produce a second sign.) -/
def parseIntegerLiteral (text : String) : Option Int :=
  parseIntegerBody (dropLongSuffix (dropUnderscores text.toList))

/-- `parse_integer_as_u32`, /repo/src/reader.rs 4160-4181. -/
def parseIntegerAsU32 (text : String) : Option Nat :=
  let number := dropUnderscores text.toList
  match number.dropWhile (fun c => c = ' ' || c = '\t' || c = '\n' || c = '\x0c' || c = '\r') with
  | '-' :: _ => none
  | _ =>
    match number with
    | '0' :: 'x' :: hex | '0' :: 'X' :: hex => u32FromStrRadix 16 hex
    | '0' :: c :: cs => u32FromStrRadix 8 ('0' :: c :: cs)
    | cs => u32FromStrRadix 10 cs

/-! ## Floating-point literals -/

/-- Value of a floating-point literal as far as the code distinguishes them. -/
inductive F64 where
  | nan
  | posInf
  | negInf
  | finite (neg : Bool) (m : Nat) (e : Int)
deriving DecidableEq, Repr

/-- `f64` parsing (`parse_float_text`, /repo/src/reader.rs 4056-4100, including hexadecimal
literals).  The parser is a parameter here; `literalFloats` in `Verif/Floats.lean` models it. -/
class FloatTables where
  parse : String → Option F64

/-- `parse_floating_point_literal`, /repo/src/reader.rs 4032-4048. -/
def parseFloatingPointLiteral [FloatTables] (text : String) : Option Json :=
  match FloatTables.parse text with
  | none => none
  | some .nan => some (.str "NaN")
  | some .posInf => some (.str "Infinity")
  | some .negInf => some (.str "-Infinity")
  | some (.finite neg m e) => some (.num (.float neg m e))

end Avdl

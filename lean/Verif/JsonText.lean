import Verif.Literals
/-!
# JSON text

Reading of imported `.avpr` and `.avsc` files (`parse_json_with_comments`, /repo/src/import.rs
36-44) and writing of the output (`serde_json::to_string_pretty`, /repo/src/main.rs 225 and 283).
The code calls two crates for this, `json_comments` 0.2.2 and `serde_json` 1.0.151
(/repo/Cargo.lock 337 and 676).  Their source is not part of /repo; the model follows their
documented behaviour.  Simplifications: characters instead of UTF-8 bytes, and a failure carries
no message.
-/

namespace Avdl

/-! ## Comments -/

/-- The states of `json_comments::StripComments`. -/
inductive StripState where
  | top
  | inString
  | escape
  | slash
  | block
  | star
  | line
deriving DecidableEq, Repr

/-- One character of `json_comments::StripComments` with the settings `c_style()`
(/repo/src/import.rs 42): comments are replaced by spaces, `/* */` and `//` are recognised, `#` is
not.  A slash outside of strings that starts no comment is an error. -/
def stripStep : StripState → Char → Option (Char × StripState)
  | .top, c => if c = '"' then some (c, .inString) else if c = '/' then some (' ', .slash)
      else some (c, .top)
  | .inString, c => if c = '"' then some (c, .top) else if c = '\\' then some (c, .escape)
      else some (c, .inString)
  | .escape, c => some (c, .inString)
  | .slash, c => if c = '*' then some (' ', .block) else if c = '/' then some (' ', .line)
      else none
  | .block, c => if c = '*' then some (' ', .star) else some (' ', .block)
  | .star, c => if c = '/' then some (' ', .top) else if c = '*' then some (' ', .star)
      else some (' ', .block)
  | .line, c => if c = '\n' then some (c, .top) else some (' ', .line)

/-- The whole text through `strip_comments` (/repo/src/import.rs 42).  The end of the text is an
error inside a string or a block comment. -/
def stripFrom : StripState → List Char → Option (List Char)
  | s, [] => if s = .top ∨ s = .line then some [] else none
  | s, c :: cs =>
      match stripStep s c with
      | none => none
      | some (c', s') => (stripFrom s' cs).map (c' :: ·)

/-! ## Reading -/

/-- Floating point numbers in JSON text, as `serde_json` reads and writes them.  Floating-point
arithmetic is not modelled.  `read` is `none` for numbers out of range. -/
class JsonFloats where
  read : List Char → Option (Bool × Nat × Int)
  write : Bool → Nat → Int → List Char

/-- White space of JSON (`Deserializer::parse_whitespace`). -/
def isJsonSpace (c : Char) : Bool := c = ' ' || c = '\n' || c = '\t' || c = '\r'

/-- `Deserializer::parse_whitespace`. -/
def skipSpace (cs : List Char) : List Char := cs.dropWhile isJsonSpace

/-- A decimal digit. -/
def isJsonDigit (c : Char) : Bool := decide ('0' ≤ c) && decide (c ≤ '9')

/-- The rest of the text after an expected word (`Deserializer::parse_ident`). -/
def dropWord : List Char → List Char → Option (List Char)
  | [], cs => some cs
  | _ :: _, [] => none
  | w :: ws, c :: cs => if c = w then dropWord ws cs else none

/-- Four hexadecimal digits (`decode_hex_escape`). -/
def readHex4 : List Char → Option (Nat × List Char)
  | a :: b :: c :: d :: cs =>
      match digitsFrom 16 0 [a, b, c, d] with
      | some n => some (n, cs)
      | none => none
  | _ => none

/-- A single-character escape (`parse_escape`). -/
def simpleEscape (c : Char) : Option Char :=
  if c = '"' then some '"' else if c = '\\' then some '\\' else if c = '/' then some '/'
  else if c = 'b' then some '\x08' else if c = 'f' then some '\x0c'
  else if c = 'n' then some '\n' else if c = 'r' then some '\r'
  else if c = 't' then some '\t' else none

/-- The second half of a surrogate pair (`parse_unicode_escape`). -/
def readLow (high : Nat) : List Char → Option (Char × List Char)
  | '\\' :: 'u' :: cs =>
      match readHex4 cs with
      | none => none
      | some (n, rest) =>
          if isLowSurrogate n then
            some (Char.ofNat (0x10000 + (high - 0xD800) * 0x400 + (n - 0xDC00)), rest)
          else none
  | _ => none

/-- What follows a backslash in a string (`parse_escape`, `parse_unicode_escape`): unpaired
surrogates are errors. -/
def readEscape : List Char → Option (Char × List Char)
  | [] => none
  | c :: cs =>
      if c = 'u' then
        match readHex4 cs with
        | none => none
        | some (n, rest) =>
            if isLowSurrogate n then none
            else if isHighSurrogate n then readLow n rest
            else some (Char.ofNat n, rest)
      else (simpleEscape c).map fun d => (d, cs)

/-- A string after its opening quote, up to and including the closing one (`parse_str`).  Control
characters must be escaped.  The first argument bounds the length. -/
def readString : Nat → List Char → Option (List Char × List Char)
  | 0, _ => none
  | _ + 1, [] => none
  | n + 1, c :: cs =>
      if c = '"' then some ([], cs)
      else if c = '\\' then
        match readEscape cs with
        | none => none
        | some (d, rest) => (readString n rest).map fun r => (d :: r.1, r.2)
      else if c.toNat < 0x20 then none
      else (readString n cs).map fun r => (c :: r.1, r.2)

/-- The digits before the decimal point: `0`, or digits that do not start with `0`
(`parse_integer`). -/
def readIntPart (cs : List Char) : Option (List Char × List Char) :=
  let ds := cs.takeWhile isJsonDigit
  if ds = [] then none
  else if ds.head? = some '0' ∧ ds ≠ ['0'] then none
  else some (ds, cs.dropWhile isJsonDigit)

/-- At least one digit. -/
def readDigits (cs : List Char) : Option (List Char × List Char) :=
  let ds := cs.takeWhile isJsonDigit
  if ds = [] then none else some (ds, cs.dropWhile isJsonDigit)

/-- The decimal point and what follows it, if there is one (`parse_decimal`). -/
def readFraction : List Char → Option (List Char × List Char)
  | '.' :: cs => (readDigits cs).map fun r => ('.' :: r.1, r.2)
  | cs => some ([], cs)

/-- The sign of an exponent. -/
def readSign : List Char → List Char × List Char
  | [] => ([], [])
  | c :: cs => if c = '+' ∨ c = '-' then ([c], cs) else ([], c :: cs)

/-- The exponent, if there is one (`parse_exponent`). -/
def readExponent : List Char → Option (List Char × List Char)
  | [] => some ([], [])
  | c :: cs =>
      if c = 'e' ∨ c = 'E' then
        (readDigits (readSign cs).2).map fun r => (c :: (readSign cs).1 ++ r.1, r.2)
      else some ([], c :: cs)

/-- The value of a number (`parse_number`, `parse_any_number`): without fraction and exponent a
`u64`, or an `i64` if there is a minus sign.  Everything else, including `-0` and integers out of
range, is a floating point number. -/
def numberValue [JsonFloats] (neg : Bool) (int tail : List Char) : Option JNum :=
  let float := (JsonFloats.read ((if neg then ['-'] else []) ++ int ++ tail)).map fun f =>
    JNum.float f.1 f.2.1 f.2.2
  match tail, digitsFrom 10 0 int with
  | [], some n =>
      if neg then
        if n = 0 then float else if n ≤ 2 ^ 63 then some (.int (-(n : Int))) else float
      else if n < 2 ^ 64 then some (.int n) else float
  | _, _ => float

/-- A number without its minus sign (`parse_any_number`). -/
def readUnsigned [JsonFloats] (neg : Bool) (cs : List Char) : Option (JNum × List Char) :=
  match readIntPart cs with
  | none => none
  | some (int, cs1) =>
      match readFraction cs1 with
      | none => none
      | some (frac, cs2) =>
          match readExponent cs2 with
          | none => none
          | some (exp, cs3) => (numberValue neg int (frac ++ exp)).map fun n => (n, cs3)

/-- A number (`deserialize_any`). -/
def readNumber [JsonFloats] : List Char → Option (JNum × List Char)
  | '-' :: cs => readUnsigned true cs
  | cs => readUnsigned false cs

/-- The key of a member: a string, a colon (`MapKey`, `parse_object_colon`). -/
def readKey (n : Nat) : List Char → Option (String × List Char)
  | '"' :: cs =>
      match readString n cs with
      | none => none
      | some (k, rest) =>
          match skipSpace rest with
          | ':' :: rest' => some (String.ofList k, rest')
          | _ => none
  | _ => none

mutual
/-- A value (`Deserializer::deserialize_any` with the visitor of `serde_json::Value`).  The first
argument bounds the number of calls.  The second is `remaining_depth`: `serde_json` allows 127
levels of arrays and objects (`check_recursion!`, the limit is 128). -/
def readValue [JsonFloats] : Nat → Nat → List Char → Option (Json × List Char)
  | 0, _, _ => none
  | n + 1, depth, cs =>
      match skipSpace cs with
      | [] => none
      | c :: rest =>
          if c = 'n' then (dropWord ['u', 'l', 'l'] rest).map fun r => (.null, r)
          else if c = 't' then (dropWord ['r', 'u', 'e'] rest).map fun r => (.bool true, r)
          else if c = 'f' then (dropWord ['a', 'l', 's', 'e'] rest).map fun r => (.bool false, r)
          else if c = '"' then
            (readString (n + 1) rest).map fun r => (.str (String.ofList r.1), r.2)
          else if c = '[' then
            if depth = 0 then none
            else
              match skipSpace rest with
              | ']' :: rest' => some (.arr [], rest')
              | _ => (readElements n (depth - 1) rest).map fun r => (.arr r.1, r.2)
          else if c = '{' then
            if depth = 0 then none
            else
              match skipSpace rest with
              | '}' :: rest' => some (.obj [], rest')
              | _ => (readMembers n (depth - 1) rest).map fun r =>
                  (.obj (JMap.insertAll [] r.1), r.2)
          else (readNumber (c :: rest)).map fun r => (.num r.1, r.2)
/-- The elements of an array, at least one, up to and including the closing bracket
(`SeqAccess::next_element_seed`, `end_seq`). -/
def readElements [JsonFloats] : Nat → Nat → List Char → Option (List Json × List Char)
  | 0, _, _ => none
  | n + 1, depth, cs =>
      match readValue n depth cs with
      | none => none
      | some (j, rest) =>
          match skipSpace rest with
          | ']' :: rest' => some ([j], rest')
          | ',' :: rest' => (readElements n depth rest').map fun r => (j :: r.1, r.2)
          | _ => none
/-- The members of an object, at least one, up to and including the closing brace
(`MapAccess::next_key_seed`, `next_value_seed`, `end_map`). -/
def readMembers [JsonFloats] : Nat → Nat → List Char → Option (List (String × Json) × List Char)
  | 0, _, _ => none
  | n + 1, depth, cs =>
      match readKey (n + 1) (skipSpace cs) with
      | none => none
      | some (k, rest) =>
          match readValue n depth rest with
          | none => none
          | some (j, rest1) =>
              match skipSpace rest1 with
              | '}' :: rest' => some ([(k, j)], rest')
              | ',' :: rest' => (readMembers n depth rest').map fun r => ((k, j) :: r.1, r.2)
              | _ => none
end

/-- `serde_json::from_reader` for `serde_json::Value` (/repo/src/import.rs 41): one value and
nothing but white space around it. -/
def readJsonText [JsonFloats] (cs : List Char) : Option Json :=
  match readValue (cs.length + 1) 127 cs with
  | none => none
  | some (j, rest) => if skipSpace rest = [] then some j else none

/-- `parse_json_with_comments`, /repo/src/import.rs 40-44. -/
def parseJsonWithComments [JsonFloats] (input : String) : Option Json :=
  match stripFrom .top input.toList with
  | none => none
  | some cs => readJsonText cs

/-! ## Writing -/

/-- The lower-case hexadecimal digit of a number below 16. -/
def hexDigit (n : Nat) : Char :=
  if n < 10 then Char.ofNat (48 + n) else Char.ofNat (87 + n)

/-- A character inside a string (`format_escaped_str`): quotes, backslashes and control characters
are escaped. -/
def escapeJsonChar (c : Char) : List Char :=
  if c = '"' then ['\\', '"']
  else if c = '\\' then ['\\', '\\']
  else if c = '\x08' then ['\\', 'b']
  else if c = '\x0c' then ['\\', 'f']
  else if c = '\n' then ['\\', 'n']
  else if c = '\r' then ['\\', 'r']
  else if c = '\t' then ['\\', 't']
  else if c.toNat < 0x20 then
    ['\\', 'u', '0', '0', hexDigit (c.toNat / 16), hexDigit (c.toNat % 16)]
  else [c]

/-- A string with its quotes. -/
def jsonString (s : String) : List Char := '"' :: s.toList.flatMap escapeJsonChar ++ ['"']

/-- A number (`itoa` for integers). -/
def jsonNumber [JsonFloats] : JNum → List Char
  | .int i => (if i < 0 then ['-'] else []) ++ Nat.toDigits 10 i.natAbs
  | .float neg m e => JsonFloats.write neg m e

/-- A line break and the indentation of the next line (`PrettyFormatter`, two spaces per level). -/
def newLine (level : Nat) : List Char := '\n' :: List.replicate (2 * level) ' '

mutual
/-- `serde_json::to_string_pretty` (/repo/src/main.rs 225 and 283) at the given level of
nesting. -/
def prettyFrom [JsonFloats] (level : Nat) : Json → List Char
  | .null => ['n', 'u', 'l', 'l']
  | .bool b => if b then ['t', 'r', 'u', 'e'] else ['f', 'a', 'l', 's', 'e']
  | .num n => jsonNumber n
  | .str s => jsonString s
  | .arr [] => ['[', ']']
  | .arr (x :: l) =>
      '[' :: newLine (level + 1) ++ prettyFrom (level + 1) x ++ prettyItems (level + 1) l ++
        newLine level ++ [']']
  | .obj [] => ['{', '}']
  | .obj ((k, v) :: m) =>
      '{' :: newLine (level + 1) ++ jsonString k ++ [':', ' '] ++ prettyFrom (level + 1) v ++
        prettyMembers (level + 1) m ++ newLine level ++ ['}']
/-- The elements of an array but the first. -/
def prettyItems [JsonFloats] (level : Nat) : List Json → List Char
  | [] => []
  | x :: l => ',' :: newLine level ++ prettyFrom level x ++ prettyItems level l
/-- The members of an object but the first. -/
def prettyMembers [JsonFloats] (level : Nat) : List (String × Json) → List Char
  | [] => []
  | (k, v) :: m =>
      ',' :: newLine level ++ jsonString k ++ [':', ' '] ++ prettyFrom level v ++
        prettyMembers level m
end

/-- `serde_json::to_string_pretty`, /repo/src/main.rs 225 and 283. -/
def prettyJson [JsonFloats] (j : Json) : String := String.ofList (prettyFrom 0 j)

end Avdl

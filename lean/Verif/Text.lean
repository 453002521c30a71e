import Verif.DocComments
import Verif.Suggest
/-!
# Operations on `str`

The operations of Rust's `str` that the code for syntax errors uses (/repo/src/reader.rs 280-1808).
A text is a list of characters; offsets count bytes of the UTF-8 encoding.  A slice that does not
begin and end between characters, or a subtraction below zero, is a panic, here `none`.
-/

namespace Avdl

/-- `&s[..n]`. -/
def sliceTo : List Char → Nat → Option (List Char)
  | _, 0 => some []
  | [], _ + 1 => none
  | c :: cs, n + 1 =>
      if c.utf8Size ≤ n + 1 then (sliceTo cs (n + 1 - c.utf8Size)).map (c :: ·) else none

/-- `&s[n..]`. -/
def sliceFrom : List Char → Nat → Option (List Char)
  | cs, 0 => some cs
  | [], _ + 1 => none
  | c :: cs, n + 1 => if c.utf8Size ≤ n + 1 then sliceFrom cs (n + 1 - c.utf8Size) else none

/-- `&s[a..b]`. -/
def slice (s : List Char) (a b : Nat) : Option (List Char) :=
  if a ≤ b then (sliceTo s b).bind (sliceFrom · a) else none

/-- Subtraction of `usize`. -/
def checkedSub (a b : Nat) : Option Nat := if b ≤ a then some (a - b) else none

/-- `str::bytes`. -/
def bytesOf (s : List Char) : List UInt8 := s.flatMap String.utf8EncodeChar

/-- `Iterator::rposition`: the index of the last element with the property. -/
def rposition (p : UInt8 → Bool) : List UInt8 → Option Nat
  | [] => none
  | b :: bs =>
      match rposition p bs with
      | some i => some (i + 1)
      | none => if p b then some 0 else none

/-- `str::find` with a text. -/
def findStr (pat : List Char) : List Char → Option Nat
  | [] => if pat.isEmpty then some 0 else none
  | c :: cs => if pat.isPrefixOf (c :: cs) then some 0 else (findStr pat cs).map (c.utf8Size + ·)

/-- `str::find` with a property of characters. -/
def findChar (p : Char → Bool) : List Char → Option Nat
  | [] => none
  | c :: cs => if p c then some 0 else (findChar p cs).map (c.utf8Size + ·)

/-- `str::rfind` with a character. -/
def rfindChar (x : Char) : List Char → Option Nat
  | [] => none
  | c :: cs =>
      match rfindChar x cs with
      | some i => some (c.utf8Size + i)
      | none => if c = x then some 0 else none

/-- The positions in `str::rmatch_indices`, here from left to right and with overlaps, which there
are none of in the only use (for `enum`, where the order does not matter either). -/
def matchIndices (pat : List Char) : List Char → List Nat
  | [] => []
  | c :: cs =>
      (if pat.isPrefixOf (c :: cs) then [0] else []) ++ (matchIndices pat cs).map (c.utf8Size + ·)

/-- `str::contains` with a text. -/
def containsStr (pat : String) (s : List Char) : Bool := (findStr pat.toList s).isSome

/-- `str::ends_with`. -/
def endsWith (pat : String) (s : List Char) : Bool := pat.toList.isSuffixOf s

/-- `str::starts_with`. -/
def startsWith (pat : String) (s : List Char) : Bool := pat.toList.isPrefixOf s

/-- `str::replace`, with the number of characters still to be left out. -/
def replaceFrom (pat rep : List Char) : Nat → List Char → List Char
  | _, [] => []
  | k + 1, _ :: cs => replaceFrom pat rep k cs
  | 0, c :: cs =>
      if pat.isPrefixOf (c :: cs) then rep ++ replaceFrom pat rep (pat.length - 1) cs
      else c :: replaceFrom pat rep 0 cs

/-- `str::replace` for a text that is not empty. -/
def replaceAll (pat rep : String) (s : List Char) : List Char :=
  replaceFrom pat.toList rep.toList 0 s

/-- `str::replacen` with the count 1, for a text that is not empty. -/
def replaceFirst (pat rep : List Char) : List Char → List Char
  | [] => []
  | c :: cs =>
      if pat.isPrefixOf (c :: cs) then rep ++ (c :: cs).drop pat.length
      else c :: replaceFirst pat rep cs

/-- `str::split` with a character. -/
def splitAt (sep : Char) : List Char → List (List Char)
  | [] => [[]]
  | c :: cs =>
      if c = sep then [] :: splitAt sep cs
      else
        match splitAt sep cs with
        | [] => [[c]]
        | w :: ws => (c :: w) :: ws

/-- `str::trim_matches` with a character. -/
def trimMatches (x : Char) (s : List Char) : List Char :=
  ((s.dropWhile (· = x)).reverse.dropWhile (· = x)).reverse

/-- `[_]::join`. -/
def joinWith (sep : String) : List (List Char) → List Char
  | [] => []
  | [w] => w
  | w :: ws => w ++ sep.toList ++ joinWith sep ws

/-- `u8::is_ascii_alphanumeric`. -/
def alnumByte (b : UInt8) : Bool :=
  (48 ≤ b && b ≤ 57) || (65 ≤ b && b ≤ 90) || (97 ≤ b && b ≤ 122)

/-- `char::is_ascii_alphanumeric`. -/
def asciiAlnum (c : Char) : Bool := c.isAlphanum

end Avdl

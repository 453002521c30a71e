import Verif.Json
/-!
# Doc comments

Model of /repo/src/doc_comments.rs.  The regular expressions are replaced by functions on lines;
each definition says which expression it stands for.
-/

namespace Avdl

/-- Token types, as far as comment extraction distinguishes them
(/repo/src/doc_comments.rs 11, `Idl_DocComment`, `Idl_EmptyComment`, `Idl_WS`). -/
inductive TokenType where
  | doc
  | ws
  | emptyComment
  | other
deriving DecidableEq, Repr

/-- A token of the stream (hidden channel included). -/
structure Token where
  type : TokenType
  text : String
deriving DecidableEq, Repr

/-- The backward scan of `extract_doc_comment`, /repo/src/doc_comments.rs 38-59, over the tokens
before the declaration, nearest first.  `i` counts down with the list: the result is the number of
tokens skipped and the text of the doc comment. -/
def scanDoc : List Token → Option (Nat × String)
  | [] => none
  | t :: ts =>
      match t.type with
      | .doc => some (0, t.text)
      | .ws | .emptyComment => (scanDoc ts).map fun r => (r.1 + 1, r.2)
      | .other => none

/-- `extract_doc_comment` up to line 61, /repo/src/doc_comments.rs 34-61: index and text of the
doc comment belonging to the node that starts at token `index`. -/
def findDoc (tokens : List Token) (index : Nat) : Option (Nat × String) :=
  (scanDoc (tokens.take index).reverse).map fun r => (min index tokens.length - 1 - r.1, r.2)

/-- `char::is_whitespace` (Unicode `White_Space`). -/
def isWhitespace (c : Char) : Bool :=
  let n := c.toNat
  (decide (9 ≤ n) && decide (n ≤ 13)) || n == 32 || n == 133 || n == 160 || n == 5760 ||
    (!decide (n ≤ 8191) && decide (n ≤ 8202)) || n == 8232 || n == 8233 || n == 8239 ||
    n == 8287 || n == 12288

/-- `str::trim_start`. -/
def trimStart (cs : List Char) : List Char := cs.dropWhile isWhitespace

/-- `str::trim_end`. -/
def trimEnd (cs : List Char) : List Char := (cs.reverse.dropWhile isWhitespace).reverse

/-- `str::trim`. -/
def trim (cs : List Char) : List Char := trimEnd (trimStart cs)

/-- `str::strip_prefix`. -/
def stripPrefix : List Char → List Char → Option (List Char)
  | [], cs => some cs
  | p :: ps, c :: cs => if p = c then stripPrefix ps cs else none
  | _ :: _, [] => none

/-- `str::strip_suffix`. -/
def stripSuffix (suffix cs : List Char) : Option (List Char) :=
  (stripPrefix suffix.reverse cs.reverse).map List.reverse

/-- Removing `/**` and `*/`, /repo/src/doc_comments.rs 71-75: only if both are there. -/
def commentBody (text : List Char) : List Char :=
  match (stripPrefix ['/', '*', '*'] text).bind (stripSuffix ['*', '/']) with
  | some inner => inner
  | none => text

/-- A text cut at its line breaks `\r?\n`: the first line, then each further line with the break
before it. -/
def breakLines : List Char → List Char × List (List Char × List Char)
  | [] => ([], [])
  | '\r' :: '\n' :: cs => ([], (['\r', '\n'], (breakLines cs).1) :: (breakLines cs).2)
  | '\n' :: cs => ([], (['\n'], (breakLines cs).1) :: (breakLines cs).2)
  | c :: cs => (c :: (breakLines cs).1, (breakLines cs).2)

/-- The text made of a first line and further lines. -/
def joinLines (first : List Char) (rest : List (List Char × List Char)) : List Char :=
  first ++ rest.flatMap fun l => l.1 ++ l.2

/-- `[\t ]`. -/
def isBlank (c : Char) : Bool := c == '\t' || c == ' '

/-- `[\t ]*` anchored at both ends. -/
def isBlankLine (line : List Char) : Bool := line.all isBlank

/-- The line begins `[\t ]*` then `stars`. -/
def starLine (stars line : List Char) : Bool :=
  (stripPrefix stars (line.dropWhile isBlank)).isSome

/-- `[^\r\n]*`: the lines of a text contain no `\n`, so only a stray `\r` matters. -/
def noStrayCr (line : List Char) : Bool := line.all (· ≠ '\r')

/-- `STAR_1_VALIDATE`, `STAR_2_VALIDATE`, /repo/src/doc_comments.rs 106-118: the first line begins
with the stars, every further line is blank or has them after optional blanks. -/
def starValidate (stars : List Char) (text : List Char) : Bool :=
  let ls := breakLines text
  (stripPrefix stars ls.1).isSome && noStrayCr ls.1 &&
    ls.2.all fun l => noStrayCr l.2 && (isBlankLine l.2 || starLine stars l.2)

/-- `[\t ]?` removed from the front. -/
def dropOneBlank : List Char → List Char
  | c :: cs => if isBlank c then cs else c :: cs
  | [] => []

/-- The replacement on the first line: `^\*[\t ]?` removed. -/
def starStripFirst (stars line : List Char) : List Char :=
  match stripPrefix stars line with
  | some r => dropOneBlank r
  | none => line

/-- The replacement on a further line: `[\t ]*\*[\t ]?` removed, a line without stars kept. -/
def starStripLine (stars line : List Char) : List Char :=
  match stripPrefix stars (line.dropWhile isBlank) with
  | some r => dropOneBlank r
  | none => line

/-- `STAR_1_REPLACE`, `STAR_2_REPLACE` with `replace_all`, /repo/src/doc_comments.rs 120-132 and
150-166: matches start at the beginning of the text or at a line break, so they do not overlap. -/
def starReplace (stars text : List Char) : List Char :=
  let ls := breakLines text
  joinLines (starStripFirst stars ls.1) (ls.2.map fun l => (l.1, starStripLine stars l.2))

/-- `WS_INDENT_VALIDATE`, /repo/src/doc_comments.rs 134-139: some line break is followed by a tab
or space. -/
def wsValidate (text : List Char) : Bool :=
  (breakLines text).2.any fun l => match l.2 with
    | c :: _ => isBlank c
    | [] => false

/-- `common_prefix`, /repo/src/doc_comments.rs 215-222. -/
def commonPrefix : List Char → List Char → List Char
  | a :: as, b :: bs => if a = b then a :: commonPrefix as bs else []
  | _, _ => []

/-- The leading whitespace of a line, /repo/src/doc_comments.rs 194. -/
def indentOf (line : List Char) : List Char := line.takeWhile isWhitespace

/-- The loop computing the common indent, /repo/src/doc_comments.rs 187-199, over the lines after
the first. -/
def commonIndent : Option (List Char) → List (List Char) → Option (List Char)
  | acc, [] => acc
  | acc, l :: ls =>
      if (trim l).isEmpty then commonIndent acc ls
      else commonIndent (some (match acc with
        | none => indentOf l
        | some cur => commonPrefix cur (indentOf l))) ls

/-- A text cut at every `\n`: the first line, then each further line with the `\n` before it.  A
`\r` before a `\n` belongs to the line it ends. -/
def cutLines : List Char → List Char × List (List Char × List Char)
  | [] => ([], [])
  | '\n' :: cs => ([], (['\n'], (cutLines cs).1) :: (cutLines cs).2)
  | c :: cs => (c :: (cutLines cs).1, (cutLines cs).2)

/-- `replace_all` of `(\r?\n)indent` by `$1`, /repo/src/doc_comments.rs 208-211, for an indent without
`\n`: an optional `\r` is kept whether it is matched or not, so a match is a `\n` followed by the
indent. -/
def replaceIndent (indent text : List Char) : List Char :=
  let ls := cutLines text
  joinLines ls.1 (ls.2.map fun l => (l.1, (stripPrefix indent l.2).getD l.2))

/-- `try_strip_ws_indent`, /repo/src/doc_comments.rs 181-212.  `lines()` drops an empty last line,
which the loop skips anyway, and the two-line requirement only fails where there is no indent. -/
def tryStripWsIndent (text : List Char) : Option (List Char) :=
  match commonIndent none ((breakLines text).2.map Prod.snd) with
  | none => none
  | some indent => if indent.isEmpty then none else some (replaceIndent indent text)

/-- `strip_indents`, /repo/src/doc_comments.rs 147-178. -/
def stripIndents (text : List Char) : List Char :=
  if starValidate ['*', '*'] text then starReplace ['*', '*'] text
  else if starValidate ['*'] text then starReplace ['*'] text
  else if wsValidate text then (tryStripWsIndent text).getD text
  else text

/-- `extract_doc_comment` /repo/src/doc_comments.rs 71-82: the documentation text of a comment token, `none` if
there is nothing but whitespace. -/
def docText (text : String) : Option String :=
  let trimmed := trim (commentBody text.toList)
  if trimmed.isEmpty then none else some (String.ofList (stripIndents trimmed))

/-- `extract_doc_comment`, /repo/src/doc_comments.rs 26-83: the index of the consumed token, if
any, and the documentation. -/
def extractDocComment (tokens : List Token) (index : Nat) : Option Nat × Option String :=
  match findDoc tokens index with
  | none => (none, none)
  | some (i, text) => (some i, docText text)

end Avdl

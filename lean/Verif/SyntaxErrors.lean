import Verif.Text
import Verif.Spans
/-!
# Syntax errors

Model of the treatment of syntax errors in /repo/src/reader.rs: the rewriting of ANTLR's messages
(280-1060), the detection of common mistakes in the source (1062-1808), the listener (1830-1908) and
the diagnostic (2104-2166).  Messages are lists of characters; the formats are kept as they are.
Panics (slices off character boundaries, subtractions below zero) are `none`; where a function can
also return nothing, the outer `none` is the panic.  Which errors ANTLR reports, and in which words,
is not modelled: everything here takes them as arguments.
-/

namespace Avdl

/-- `SyntaxError`, /repo/src/reader.rs 265-278. -/
structure SyntaxErr where
  offset : Nat
  length : Nat
  message : List Char
  label : Option (List Char)
  help : Option (List Char)
deriving DecidableEq, Repr

/-- `EnrichedError`, /repo/src/reader.rs 298-306. -/
structure Enriched where
  message : List Char
  label : Option (List Char)
  help : Option (List Char)
deriving DecidableEq, Repr

/-- The texts between backquotes. -/
def quoted (s : List Char) : List Char := "`".toList ++ s ++ "`".toList

/-! ## Words before a place -/

/-- `rposition` with the test "not a letter, digit or underscore" and, if asked for, "nor
backquote", /repo/src/reader.rs 1342, 1441 and elsewhere: where the last word of a text begins. -/
def wordStart (backquotes : Bool) (s : List Char) : Nat :=
  match rposition (fun b => !alnumByte b && b != 95 && !(backquotes && b == 96)) (bytesOf s) with
  | some p => p + 1
  | none => 0

/-- The last word of a text and what precedes it; `some none` if there is no such word. -/
def lastWord (backquotes : Bool) (s : List Char) : Option (Option (Nat × List Char × List Char)) :=
  let start := wordStart backquotes s
  if start ≥ utf8Len s then some none
  else do
    let before ← sliceTo s start
    let word ← slice s start (utf8Len s)
    some (some (start, before, word))

/-! ## Parts of ANTLR's messages -/

/-- `extract_no_viable_input`, /repo/src/reader.rs 881-886. -/
def noViableInput (msg : List Char) : Option (Option (List Char)) :=
  match findStr "no viable alternative at input '".toList msg with
  | none => some none
  | some p => do
      let rest ← sliceFrom msg (p + 32)
      match findStr ['\''] rest with
      | none => some none
      | some e => (sliceTo rest e).map some

/-- The loop of `split_trailing_keyword`, /repo/src/reader.rs 1004-1008. -/
def splitKeywordLoop (merged : List Char) : List String → Option (List Char)
  | [] => some merged
  | kw :: kws =>
      if endsWith kw (asciiLower merged) && utf8Len (asciiLower merged) > utf8Len kw.toList then do
        let n ← checkedSub (utf8Len merged) (utf8Len kw.toList)
        sliceTo merged n
      else splitKeywordLoop merged kws

/-- `split_trailing_keyword`, /repo/src/reader.rs 1002-1010. -/
def splitTrailingKeyword (merged : List Char) : Option (List Char) :=
  splitKeywordLoop merged avroKeywords

/-- The loop of `extract_annotation_name`, /repo/src/reader.rs 971-996; the first argument is
fuel. -/
def annotationLoop (input : List Char) : Nat → Nat → Option (Option (List Char))
  | 0, _ => none
  | n + 1, searchFrom => do
      let head ← sliceTo input searchFrom
      match rfindChar '@' head with
      | none => some none
      | some at_ => do
          let after ← sliceFrom input (at_ + 1)
          let len := (after.takeWhile fun c => asciiAlnum c || c == '_' || c == '-').length
          if len > 0 then do
            let ident ← sliceTo after len
            let afterIdent ← sliceFrom after len
            if !startsWith "(" afterIdent then (splitTrailingKeyword ident).map some
            else if at_ = 0 then some none
            else annotationLoop input n at_
          else if at_ = 0 then some none
          else annotationLoop input n at_

/-- `extract_annotation_name`, /repo/src/reader.rs 966-997. -/
def annotationName (input : List Char) : Option (Option (List Char)) :=
  annotationLoop input (input.length + 1) (utf8Len input)

/-- `DECLARATION_KEYWORDS`, /repo/src/reader.rs 1015-1017. -/
def declarationKeywords : List String :=
  ["record", "enum", "fixed", "error", "protocol", "import", "schema"]

/-- `annotation_name_starts_with_keyword`, /repo/src/reader.rs 1027-1034. -/
def startsWithKeyword (name : List Char) : Option String :=
  declarationKeywords.find? fun kw => startsWith kw (asciiLower name)

/-- `extract_trailing_identifier`, /repo/src/reader.rs 1042-1060. -/
def trailingIdentifier (input : List Char) : Option (Option (List Char)) := do
  let r ← lastWord false input
  some (r.map fun x => x.2.2)

/-- `extract_expecting_tokens`, /repo/src/reader.rs 795-800. -/
def expectingTokens (msg : List Char) : Option (Option (List Char)) :=
  match findStr "expecting {".toList msg with
  | none => some none
  | some p => do
      let rest ← sliceFrom msg (p + 11)
      match findStr ['}'] rest with
      | none => some none
      | some e => (slice msg (p + 11) (p + 11 + e)).map some

/-- `count_tokens_in_set`, /repo/src/reader.rs 804-809. -/
def countTokens (set : List Char) : Nat :=
  if (trim set).isEmpty then 0 else (splitAt ',' set).length

/-- `extract_quoted_token`, /repo/src/reader.rs 814-822. -/
def quotedToken (msg : List Char) (pre : String) : Option (Option (List Char)) :=
  match findStr pre.toList msg with
  | none => some none
  | some p => do
      let rest ← sliceFrom msg (p + utf8Len pre.toList)
      if !startsWith "'" rest then some none
      else do
        let inner ← sliceFrom rest 1
        match findStr ['\''] inner with
        | none => some none
        | some e => (slice rest 1 (1 + e)).map some

/-- `humanize_token_name`, /repo/src/reader.rs 758-766. -/
def humanizeToken (name : List Char) : List Char :=
  if name = "IdentifierToken".toList then "identifier".toList
  else if name = "StringLiteral".toList then "string literal".toList
  else if name = "IntegerLiteral".toList then "integer literal".toList
  else if name = "FloatingPointLiteral".toList then "floating-point literal".toList
  else name

/-- The filter with `seen.insert`, /repo/src/reader.rs 604 and 655: the first occurrence of each
element, given those seen before. -/
def firstOccurrences (seen : List (List Char)) : List (List Char) → List (List Char)
  | [] => []
  | w :: ws =>
      if w ∈ seen then firstOccurrences seen ws else w :: firstOccurrences (w :: seen) ws

/-- The entry for the character U+001A in ANTLR's token sets. -/
def subToken : List Char := "'\\u001A'".toList

/-- `format_expected_help`, /repo/src/reader.rs 594-610. -/
def expectedHelp (tokens : List Char) : Option (List Char) :=
  let cleaned := firstOccurrences [] <|
    ((((splitAt ',' tokens).map trim).filter fun t => !t.isEmpty).filter fun t =>
      t ≠ "DocComment".toList ∧ t ≠ subToken ∧ t ≠ "<EOF>".toList).map fun t =>
        humanizeToken (trimMatches '\'' t)
  if cleaned.isEmpty then none else some ("expected one of: ".toList ++ joinWith ", " cleaned)

/-- `expecting_set_includes_string_literal`, /repo/src/reader.rs 829-833. -/
def expectsString (tokens : List Char) : Bool :=
  (splitAt ',' tokens).any fun t => trimMatches '\'' (trim t) = "StringLiteral".toList

/-- The loop of `split_token_set`, /repo/src/reader.rs 715-725, over the bytes from index `i` on. -/
def tokenSetLoop (set : List Char) : List UInt8 → Nat → Nat → Bool → Option (List (List Char))
  | [], _, start, _ => do
      let last := trim (← sliceFrom set start)
      some (if last.isEmpty then [] else [last])
  | b :: bs, i, start, inQuotes =>
      if b = 39 then tokenSetLoop set bs (i + 1) start (!inQuotes)
      else if b = 44 && !inQuotes then do
        let token := trim (← slice set start i)
        let rest ← tokenSetLoop set bs (i + 1) (i + 1) inQuotes
        some (if token.isEmpty then rest else token :: rest)
      else tokenSetLoop set bs (i + 1) start inQuotes

/-- `split_token_set`, /repo/src/reader.rs 709-732. -/
def splitTokenSet (set : List Char) : Option (List (List Char)) :=
  tokenSetLoop set (bytesOf set) 0 0 false

/-- `expecting_set_includes_close_brace`, /repo/src/reader.rs 840-842. -/
def expectsCloseBrace (tokens : List Char) : Option Bool :=
  (splitTokenSet tokens).map fun l => l.contains "'}'".toList

/-- The loop of `find_closing_brace`, /repo/src/reader.rs 739-745, over the bytes from index `i`
on. -/
def closingBraceLoop : List UInt8 → Nat → Bool → Option Nat
  | [], _, _ => none
  | b :: bs, i, inQuotes =>
      if b = 39 then closingBraceLoop bs (i + 1) (!inQuotes)
      else if b = 125 && !inQuotes then some i
      else closingBraceLoop bs (i + 1) inQuotes

/-- `find_closing_brace`, /repo/src/reader.rs 737-747. -/
def findClosingBrace (s : List Char) : Option Nat := closingBraceLoop (bytesOf s) 0 false

/-- `looks_like_bare_identifier`, /repo/src/reader.rs 848-862. -/
def looksLikeIdentifier (token : List Char) : Bool :=
  match token with
  | [] => false
  | c :: cs =>
      if token = "null".toList ∨ token = "true".toList ∨ token = "false".toList then false
      else if !c.isAlpha && c != '_' then false
      else cs.all fun c => asciiAlnum c || c == '_'

/-- `append_quoting_hint`, /repo/src/reader.rs 868-877. -/
def quotingHint (help : Option (List Char)) (offending : List Char) : List Char :=
  let hint := "hint: did you mean \"".toList ++ offending ++
    "\"? Enum default values must be quoted strings".toList
  match help with
  | some h => h ++ "\n".toList ++ hint
  | none => hint

/-! ## Rewriting messages -/

/-- `build_unexpected_token_error`, /repo/src/reader.rs 528-586. -/
def unexpectedToken (offending : List Char) (help : Option (List Char))
    (expectsString expectsCloseBrace : Bool) : Option Enriched :=
  if offending = "<EOF>".toList then
    if expectsCloseBrace then
      some ⟨"unexpected end of file -- missing closing `}`".toList,
        some "missing closing `}`".toList, none⟩
    else some ⟨"unexpected end of file".toList, some "unexpected end of file".toList, help⟩
  else if expectsString && looksLikeIdentifier offending then
    some ⟨"unexpected token ".toList ++ quoted offending ++ " -- did you mean `\"".toList ++
        offending ++ "\"`?".toList,
      some ("unexpected ".toList ++ quoted offending ++ " -- did you mean `\"".toList ++
        offending ++ "\"`?".toList),
      some (quotingHint help offending)⟩
  else do
    let suggestion ←
      (if looksLikeIdentifier offending then suggestKeyword (String.ofList offending) else some none)
    match suggestion with
    | some kw =>
        some ⟨"unexpected token ".toList ++ quoted offending ++ " -- did you mean ".toList ++
            quoted kw.toList ++ "?".toList,
          some ("did you mean ".toList ++ quoted kw.toList ++ "?".toList), help⟩
    | none =>
        some ⟨"unexpected token ".toList ++ quoted offending,
          some ("unexpected ".toList ++ quoted offending), help⟩

/-- `simplify_large_expecting_set`, /repo/src/reader.rs 475-511. -/
def simplifyExpecting (msg : List Char) : Option (Option Enriched) := do
  match ← expectingTokens msg with
  | none => some none
  | some tokens =>
      if countTokens tokens ≤ 5 then some none
      else do
        let help := expectedHelp tokens
        let brace ← expectsCloseBrace tokens
        match ← quotedToken msg "extraneous input " with
        | some t => (unexpectedToken t help (expectsString tokens) brace).map some
        | none =>
          match ← quotedToken msg "mismatched input " with
          | some t => (unexpectedToken t help (expectsString tokens) brace).map some
          | none => some none

/-- `enrich_antlr_error`, /repo/src/reader.rs 311-412. -/
def enrich (msg : List Char) : Option (Option Enriched) := do
  let input ← noViableInput msg
  let anno ← (match input with
    | some i => annotationName i
    | none => some none)
  match anno with
  | some name =>
      match startsWithKeyword name with
      | some kw =>
          some (some ⟨"unexpected `@` before ".toList ++ quoted kw.toList ++
              (" -- did you mean to add an annotation? " ++
                "annotations use `@name(\"value\")` syntax").toList,
            some ("unexpected `@` before ".toList ++ quoted kw.toList), none⟩)
      | none =>
          some (some ⟨"annotation `@".toList ++ name ++ "` is missing its value -- use `@".toList ++
            name ++ "(\"value\")` syntax".toList, none, none⟩)
  | none =>
    if input.any (startsWith "import\"") then
      some (some ⟨("import statement missing kind specifier -- " ++
          "use `import idl`, `import protocol`, or `import schema`").toList,
        some "missing import kind".toList, none⟩)
    else do
      let word ← (match input with
        | some i => trailingIdentifier i
        | none => some none)
      let suggestion ← (match word with
        | some w => (suggestKeyword (String.ofList w)).map fun s => s.map fun kw => (w, kw)
        | none => some none)
      match suggestion with
      | some (w, kw) =>
          some (some ⟨"unrecognized token ".toList ++ quoted w ++ " -- did you mean ".toList ++
              quoted kw.toList ++ "?".toList,
            some ("did you mean ".toList ++ quoted kw.toList ++ "?".toList), none⟩)
      | none =>
        if containsStr "expecting '('" msg && containsStr "mismatched input" msg then
          some (some ⟨msg ++ " (annotations require `@name(value)` syntax)".toList, none, none⟩)
        else simplifyExpecting msg

/-- `rewrite_antlr_jargon`, /repo/src/reader.rs 688-703. -/
def rewriteJargon (msg : List Char) : List Char :=
  match stripPrefix "extraneous input ".toList msg with
  | some rest => "unexpected ".toList ++ replaceFirst "expecting".toList "expected".toList rest
  | none =>
    match stripPrefix "mismatched input ".toList msg with
    | some rest => "unexpected ".toList ++ replaceFirst "expecting".toList "expected".toList rest
    | none =>
      if startsWith "no viable alternative at input " msg then
        replaceAll "no viable alternative at input" "unexpected input" msg
      else msg

/-- The list of expected tokens in words, /repo/src/reader.rs 664-679. -/
def expectedList : List (List Char) → List Char
  | [] => []
  | [t] => "expected ".toList ++ t
  | [t, u] => "expected ".toList ++ t ++ " or ".toList ++ u
  | t :: u :: v :: ts => "expected ".toList ++ joinWith ", " (t :: u :: v :: ts).dropLast ++
      ", or ".toList ++ (t :: u :: v :: ts).getLastD []

/-- `sanitize_antlr_message`, /repo/src/reader.rs 625-682. -/
def sanitize (msg : List Char) : Option (List Char) :=
  match findStr "expecting {".toList msg with
  | none => some (rewriteJargon (replaceAll "<EOF>" "end of file" msg))
  | some p => do
      let rest ← sliceFrom msg (p + 11)
      match findClosingBrace rest with
      | none => some (rewriteJargon (replaceAll "<EOF>" "end of file" msg))
      | some e => do
          let set ← slice msg (p + 11) (p + 11 + e)
          let raw ← splitTokenSet set
          let cleaned := firstOccurrences [] <|
            (raw.filter fun t => t ≠ "DocComment".toList ∧ t ≠ subToken).map fun t =>
              if t = "<EOF>".toList then "end of file".toList else humanizeToken t
          let before ← sliceTo msg p
          let after ← sliceFrom msg (p + 11 + e + 1)
          some (rewriteJargon (if cleaned.isEmpty then trimEnd before ++ after
            else before ++ expectedList cleaned ++ after))

/-- `humanize_antlr_message`, /repo/src/reader.rs 780-788.  (The test whether the name occurs
saves a copy and is left out.) -/
def humanizeMessage (msg : List Char) : List Char :=
  replaceAll "FloatingPointLiteral" "floating-point literal" <|
    replaceAll "IntegerLiteral" "integer literal" <|
      replaceAll "StringLiteral" "string literal" <|
        replaceAll "IdentifierToken" "identifier" msg

/-! ## The listener -/

/-- What ANTLR reports: `syntax_error`, /repo/src/reader.rs 1846-1854. -/
structure RawError where
  offending : Option TokenPos
  line : Nat
  column : Nat
  message : List Char

/-- The text `line N:M ` before a message, /repo/src/reader.rs 1902. -/
def linePart (line column : Nat) : List Char :=
  "line ".toList ++ Nat.toDigits 10 line ++ ":".toList ++ Nat.toDigits 10 column ++ " ".toList

/-- `CollectingErrorListener::syntax_error`, /repo/src/reader.rs 1846-1907; `source` is what the
listener has of the source text. -/
def listen (source : Option (List Char)) (e : RawError) : Option SyntaxErr := do
  let span := syntaxErrorSpan e.offending source e.line e.column
  match ← enrich e.message with
  | some r => some ⟨span.1, span.2, linePart e.line e.column ++ r.message, r.label, r.help⟩
  | none => do
      let clean ← sanitize e.message
      some ⟨span.1, span.2, linePart e.line e.column ++ humanizeMessage clean, none, none⟩

/-- The listener on several errors. -/
def listenAll (source : Option (List Char)) : List RawError → Option (List SyntaxErr)
  | [] => some []
  | e :: es => do
      let x ← listen source e
      let xs ← listenAll source es
      some (x :: xs)

/-! ## Mistakes found in the source -/

/-- `extract_line_prefix`, /repo/src/reader.rs 1792-1811. -/
def linePrefix (msg : List Char) : Option (List Char) :=
  match findStr "line ".toList msg with
  | none => some []
  | some pos => do
      let afterLine ← sliceFrom msg (pos + 5)
      match findStr [':'] afterLine with
      | none => some []
      | some colon => do
          let afterColon ← sliceFrom afterLine (colon + 1)
          let digits := (findChar (fun c => !c.isDigit) afterColon).getD (utf8Len afterColon)
          let end_ := pos + 5 + colon + 1 + digits
          if end_ < utf8Len msg then sliceTo msg (end_ + 1) else some []

/-- `str::get` with the place of an error, as in /repo/src/reader.rs 1254. -/
def errorText (e : SyntaxErr) (source : List Char) : Option (List Char) :=
  slice source e.offset (e.offset + e.length)

/-- `detect_empty_union`, /repo/src/reader.rs 1210-1247. -/
def detectEmptyUnion (e : SyntaxErr) (source : List Char) : Option (Option SyntaxErr) := do
  let before ← sliceTo source e.offset
  if !containsStr "`}`" e.message then some none
  else
    let trimmed := trimEnd before
    if !endsWith "{" trimmed then some none
    else do
      let beforeBrace := trimEnd (← sliceTo trimmed (← checkedSub (utf8Len trimmed) 1))
      if !endsWith "union" beforeBrace then some none
      else do
        let offset ← checkedSub (utf8Len beforeBrace) 5
        let length ← checkedSub (e.offset + e.length) offset
        let pre ← linePrefix e.message
        some (some ⟨offset, length, pre ++ "union must contain at least one type member".toList,
          some "empty union".toList,
          some "add at least one type inside the braces, e.g., `union { null, string }`".toList⟩)

/-- `detect_empty_type_parameter`, /repo/src/reader.rs 1252-1297. -/
def detectEmptyTypeParameter (e : SyntaxErr) (source : List Char) : Option (Option SyntaxErr) :=
  match errorText e source with
  | none => some none
  | some text =>
    if trim text ≠ ['>'] then some none
    else do
      let before := trimEnd (← sliceTo source e.offset)
      if !endsWith "<" before then some none
      else do
        let beforeAngle := trimEnd (← sliceTo before (← checkedSub (utf8Len before) 1))
        let keyword := if endsWith "map" beforeAngle then some "map"
          else if endsWith "array" beforeAngle then some "array" else none
        match keyword with
        | none => some none
        | some kw => do
            let offset ← checkedSub (utf8Len beforeAngle) (utf8Len kw.toList)
            let length ← checkedSub (e.offset + e.length) offset
            let pre ← linePrefix e.message
            some (some ⟨offset, length, pre ++ quoted kw.toList ++
                " type requires a type parameter".toList,
              some "missing type inside `<>`".toList,
              some ("specify the value type, e.g., ".toList ++
                quoted (if kw = "map" then "map<string>".toList else "array<string>".toList))⟩)

/-- The words that begin a declaration, /repo/src/reader.rs 1357 and 1371. -/
def isDeclWord (w : List Char) : Bool :=
  w = "record".toList ∨ w = "enum".toList ∨ w = "error".toList ∨ w = "fixed".toList

/-- The loop over the bytes in /repo/src/reader.rs 1387-1403 and 1687-1703: the places of the open
braces, the last one first.  Arguments: bytes from index `i` on, stack, `in_string`,
`prev_backslash`. -/
def braceLoop : List UInt8 → Nat → List Nat → Bool → Bool → List Nat
  | [], _, stack, _, _ => stack
  | b :: bs, i, stack, true, prev =>
      braceLoop bs (i + 1) stack (!(b = 34 && !prev)) (b = 92 && !prev)
  | b :: bs, i, stack, false, prev =>
      if b = 34 then braceLoop bs (i + 1) stack true prev
      else if b = 123 then braceLoop bs (i + 1) (i :: stack) false prev
      else if b = 125 then braceLoop bs (i + 1) stack.tail false prev
      else braceLoop bs (i + 1) stack false prev

/-- The open braces of a text. -/
def openBraces (s : List Char) : List Nat := braceLoop (bytesOf s) 0 [] false false

/-- `identify_construct`, /repo/src/reader.rs 1738-1787. -/
def identifyConstruct (beforeBrace : List Char) : Option (Option String) := do
  match ← lastWord true (trimEnd beforeBrace) with
  | none => some none
  | some (_, before, name) =>
      if name = "protocol".toList then some (some "protocol")
      else if name = "record".toList then some (some "record")
      else if name = "error".toList then some (some "error record")
      else if name = "enum".toList then some (some "enum")
      else if name = "union".toList then some (some "union")
      else do
        match ← lastWord false (trimEnd before) with
        | none => some none
        | some (_, _, kw) =>
            if kw = "protocol".toList then some (some "protocol")
            else if kw = "record".toList then some (some "record")
            else if kw = "error".toList then some (some "error record")
            else if kw = "enum".toList then some (some "enum")
            else some none

/-- The report of an open brace, /repo/src/reader.rs 1407-1427 and 1711-1733. -/
def openBraceError (e : SyntaxErr) (source : List Char) (brace : Nat) (what help : String) :
    Option SyntaxErr := do
  let before ← sliceTo source brace
  let construct ← identifyConstruct (trimEnd before)
  let pre ← linePrefix e.message
  match construct with
  | some name => some ⟨brace, 1, pre ++ what.toList ++ " for ".toList ++ name.toList,
      some ("this ".toList ++ name.toList ++ " is never closed".toList), some help.toList⟩
  | none => some ⟨brace, 1, pre ++ what.toList, some "this `{` is never closed".toList,
      some help.toList⟩

/-- `detect_missing_close_brace_before_declaration`, /repo/src/reader.rs 1309-1427. -/
def detectMissingCloseBrace (e : SyntaxErr) (source : List Char) : Option (Option SyntaxErr) :=
  match errorText e source with
  | none => some none
  | some text =>
    if trim text ≠ ['{'] then some none
    else if !(containsStr "';'" e.message || containsStr "','" e.message) then some none
    else do
      let head ← sliceTo source e.offset
      match ← lastWord true (trimEnd head) with
      | none => some none
      | some (_, before, name) => do
          let decl ←
            (if isDeclWord name then some true
            else (lastWord false (trimEnd before)).map fun w =>
              match w with
              | none => false
              | some (_, _, kw) => isDeclWord kw)
          if !decl then some none
          else
            match openBraces head with
            | [] => some none
            | brace :: _ =>
                (openBraceError e source brace "missing closing `}`"
                  "add a closing `}` before the next type declaration").map some

/-- `detect_fixed_non_integer`, /repo/src/reader.rs 1430-1482. -/
def detectFixedNonInteger (e : SyntaxErr) (source : List Char) : Option (Option SyntaxErr) :=
  if !containsStr "`)`" e.message then some none
  else do
    let before ← sliceTo source e.offset
    match rfindChar '(' before with
    | none => some none
    | some paren => do
        let beforeParen := trimEnd (← sliceTo before paren)
        match ← lastWord false beforeParen with
        | none => some none
        | some (_, beforeName, name) =>
            if !endsWith "fixed" (trimEnd beforeName) then some none
            else do
              let bad := trim (← slice source (paren + 1) e.offset)
              let pre ← linePrefix e.message
              let len ← checkedSub (← checkedSub e.offset paren) 1
              some (some ⟨paren + 1, if len > 0 then len else 1,
                pre ++ "fixed type requires an integer size -- use `fixed ".toList ++ name ++
                  "(<integer>)`, e.g., `fixed ".toList ++ name ++ "(16)`".toList,
                some (quoted bad ++ " is not an integer".toList), none⟩)

/-- `detect_missing_name`, /repo/src/reader.rs 1490-1540. -/
def detectMissingName (e : SyntaxErr) (source : List Char) : Option (Option SyntaxErr) :=
  match errorText e source with
  | none => some none
  | some text =>
    if trim text ≠ ['{'] then some none
    else do
      let before := trimEnd (← sliceTo source e.offset)
      match ← lastWord false before with
      | none => some none
      | some (_, _, kw) =>
          let construct := if kw = "protocol".toList then some "protocol"
            else if kw = "record".toList then some "record"
            else if kw = "enum".toList then some "enum"
            else if kw = "fixed".toList then some "fixed"
            else if kw = "error".toList then some "error record"
            else none
          match construct with
          | none => some none
          | some what => do
              let pre ← linePrefix e.message
              let first ← sliceTo kw 1
              let rest ← sliceFrom kw 1
              some (some ⟨e.offset, e.length,
                pre ++ "expected name after ".toList ++ quoted kw ++ ", found `{`".toList,
                some ("expected ".toList ++ what.toList ++ " name before `{`".toList),
                some ("add a name, e.g., `".toList ++ kw ++ " My".toList ++
                  first.map Char.toUpper ++ rest ++ " { ... }`".toList)⟩)

/-- Whether one of the places of `enum` has a brace after it, /repo/src/reader.rs 1563-1569. -/
def enumBefore (source : List Char) (offset : Nat) : List Nat → Option Bool
  | [] => some false
  | pos :: ps => do
      let after ← slice source (pos + 4) offset
      if containsStr "{" after then some true else enumBefore source offset ps

/-- `detect_trailing_comma_in_enum`, /repo/src/reader.rs 1545-1607. -/
def detectTrailingComma (e : SyntaxErr) (source : List Char) : Option (Option SyntaxErr) :=
  match errorText e source with
  | none => some none
  | some text =>
    if trim text ≠ ['}'] then some none
    else do
      let head ← sliceTo source e.offset
      let before := trimEnd head
      if !endsWith "," before then some none
      else do
        let comma ← checkedSub (utf8Len before) 1
        let beforeComma ← sliceTo before comma
        let hasEnum ← enumBefore source e.offset (matchIndices "enum".toList head)
        if !hasEnum then some none
        else do
          let symbol ← lastWord false (trimEnd beforeComma)
          let pre ← linePrefix e.message
          some (some ⟨comma, 1,
            pre ++ "trailing comma is not allowed in enum declaration".toList,
            some "trailing comma".toList,
            some (match symbol with
              | none => "remove the trailing comma".toList
              | some (_, _, s) => "remove the comma after ".toList ++ quoted s)⟩)

/-- `detect_misspelled_keyword`, /repo/src/reader.rs 1617-1668. -/
def detectMisspelled (e : SyntaxErr) (source : List Char) : Option (Option SyntaxErr) := do
  let before ← sliceTo source e.offset
  match ← lastWord true (trimEnd before) with
  | none => some none
  | some (_, beforeName, _) => do
      match ← lastWord false (trimEnd beforeName) with
      | none => some none
      | some (start, _, candidate) => do
          match ← suggestKeyword (String.ofList candidate) with
          | none => some none
          | some kw => do
              let pre ← linePrefix e.message
              some (some ⟨start, utf8Len candidate,
                pre ++ "unrecognized ".toList ++ quoted candidate ++ " -- did you mean ".toList ++
                  quoted kw.toList ++ "?".toList,
                some ("did you mean ".toList ++ quoted kw.toList ++ "?".toList), none⟩)

/-- `detect_unclosed_brace`, /repo/src/reader.rs 1674-1734. -/
def detectUnclosedBrace (e : SyntaxErr) (source : List Char) : Option (Option SyntaxErr) :=
  if !containsStr "unexpected end of file" e.message then some none
  else
    match openBraces source with
    | [] => some none
    | brace :: _ =>
        (openBraceError e source brace "unexpected end of file -- missing closing `}`"
          "add a closing `}` to match this opening brace").map some

/-- The first of several detections that finds something. -/
def firstFound (e : SyntaxErr) (source : List Char) :
    List (SyntaxErr → List Char → Option (Option SyntaxErr)) → Option (Option SyntaxErr)
  | [] => some none
  | d :: ds => do
      match ← d e source with
      | some r => some (some r)
      | none => firstFound e source ds

/-- `refine_errors_with_source`, /repo/src/reader.rs 1095-1206; where the code returns nothing, the
errors are used as they are (line 2130).  The `expect` at 1178 cannot fail in a match on the last
element. -/
def refine (errors : List SyntaxErr) (source : List Char) : Option (List SyntaxErr) :=
  match errors with
  | [] => some []
  | first :: more => do
      match ← firstFound first source ([detectEmptyUnion, detectEmptyTypeParameter,
          detectFixedNonInteger, detectMissingName, detectTrailingComma] ++
          (if more.isEmpty then [] else [detectMisspelled]) ++ [detectMissingCloseBrace]) with
      | some r => some [r]
      | none => do
          match ← detectUnclosedBrace (errors.getLastD first) source with
          | some r => some (r :: errors.dropLast)
          | none => some errors

/-! ## The diagnostic -/

/-- `is_unterminated_string_lexer_error`, /repo/src/reader.rs 439-446. -/
def isUnterminated (e : SyntaxErr) : Bool :=
  containsStr "token recognition error at: '\"" e.message

/-- The error for an unterminated string, /repo/src/reader.rs 2112-2133. -/
def unterminatedError (e : SyntaxErr) : Option SyntaxErr := do
  let pre ← (match findStr "token recognition error".toList e.message with
    | none => some []
    | some pos => (sliceTo e.message pos).map trimEnd)
  some ⟨e.offset, e.length,
    if pre.isEmpty then "unterminated string literal".toList
    else pre ++ " unterminated string literal".toList,
    some "unterminated string literal".toList,
    some "string literals must be closed with a `\"` on the same line".toList⟩

/-- What `parse_idl_named` reports for the errors of lexer and parser, /repo/src/reader.rs
2030-2166, after the text up to U+001A: the errors of the diagnostic (the first one is the main one,
the others are related to it), or, if the parser had none, the warnings. -/
inductive SyntaxOutcome where
  | failed (main : SyntaxErr) (related : List SyntaxErr)
  | warnings (ws : List SyntaxErr)
deriving DecidableEq

/-- The outcome for the given errors; `none` is a panic. -/
def syntaxOutcome (source : List Char) (lexer parser : List RawError) : Option SyntaxOutcome := do
  let lexerErrors ← listenAll (some source) lexer
  let errors ← listenAll none parser
  if errors.isEmpty then some (.warnings lexerErrors)
  else
    match lexerErrors.find? isUnterminated with
    | some u => do
        let r ← unterminatedError u
        some (.failed r [])
    | none => do
        match ← refine errors source with
        | [] => none
        | main :: related => some (.failed main related)

end Avdl

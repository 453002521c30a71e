import Verif.Props.SyntaxPatterns
/-!
# Reports of syntax errors: examples and findings (C49, C50)
-/

namespace Avdl.Props
open Spec

/-! ## Examples -/

/-- What is shown of the reports, for examples. -/
def reports (text : String) (parser : List RawError) : Option (List (Nat × Nat × String)) :=
  (syntaxOutcome text.toList [] parser).map fun
    | .failed m r => (m :: r).map fun x => (x.offset, x.length, String.ofList x.message)
    | .warnings w => w.map fun x => (x.offset, x.length, String.ofList x.message)

/-- An error in the first line, at a token of one character. -/
def exError (column : Nat) (message : String) : RawError :=
  ⟨some ⟨column, column⟩, 1, column, message.toList⟩

/-- An error at the end of a text of one line. -/
def exEnd (column : Nat) (message : String) : RawError :=
  ⟨some ⟨column, (column : Int) - 1⟩, 1, column, message.toList⟩

/-- A set of expected tokens. -/
def exSet : String := "{DocComment, '@', 'a', 'b', 'c', 'd', 'e', IdentifierToken, '}'}"

/-- C49: the tokens of two errors are in the text; both are reported. -/
example : TokenIn "protocol P { ; ; }".toList (exError 13 "").offending ∧
    TokenIn "protocol P { ; ; }".toList (exError 15 "").offending :=
  ⟨.word (before := "protocol P { ".toList) (word := ";".toList) (after := " ; }".toList) rfl,
    .word (before := "protocol P { ; ".toList) (word := ";".toList) (after := " }".toList) rfl⟩

example : reports "protocol P { ; ; }"
    [exError 13 "extraneous input ';' expecting {'@', '}'}",
      exError 15 "extraneous input ';' expecting {'@', '}'}"] =
    some [(13, 1, "line 1:13 unexpected ';' expected '@' or '}'"),
      (15, 1, "line 1:15 unexpected ';' expected '@' or '}'")] := by decide +kernel

/-- C49: an error at the end of the text. -/
example : TokenIn "enum E { A".toList (exEnd 10 "").offending := .endOfText

/-- C49: a string that is not closed. -/
example : (syntaxOutcome "protocol P { record R { string s = \"abc; } }".toList
    [⟨none, 1, 35, "token recognition error at: '\"abc; } }'".toList⟩]
    [⟨some ⟨35, 34⟩, 1, 35, "mismatched input '<EOF>' expecting {',', ';'}".toList⟩]).map (fun o =>
      match o with
      | .failed m r => (m.offset, m.length, String.ofList m.message, r.length)
      | .warnings _ => (0, 0, "", 0)) =
    some (35, 1, "line 1:35 unterminated string literal", 0) := by decide +kernel

/-- C50, expected tokens: the hypotheses can be met. -/
example : (exError 9 "mismatched input 'x' expecting {',', IdentifierToken, '}'}").message =
    expecting "mismatched input " "x".toList ["','".toList, "IdentifierToken".toList, "'}'".toList] := by
  decide +kernel

example : enrich "mismatched input 'x' expecting {',', IdentifierToken, '}'}".toList = some none := by
  decide +kernel

example : reports "enum E { x" [exError 9 "mismatched input 'x' expecting {',', IdentifierToken, '}'}"] =
    some [(9, 1, "line 1:9 unexpected 'x' expected ',', identifier, or '}'")] := by decide +kernel

/-- C50, end of file: the hypotheses can be met. -/
example : ∃ label help, listen none (exEnd 24 ("mismatched input '<EOF>' expecting " ++ exSet)) =
    some ⟨utf8Len "protocol P { record R { ".toList, 1, positionText 1 24 ++
      " unexpected end of file".toList, label, help⟩ :=
  ⟨some "unexpected end of file".toList,
    some "expected one of: @, a, b, c, d, e, identifier, ".toList, by decide +kernel⟩

example : Declaring "protocol P { record R ".toList "record" :=
  ⟨"protocol P { ".toList, "record", " ".toList, "R".toList, " ".toList, rfl, by decide,
    by intro y c h
       have := congrArg List.getLast? h
       simp at this
       subst this
       decide,
    by unfold OnlyBlank; decide, by decide, ⟨by decide, by decide⟩, by decide,
    by unfold OnlyBlank; decide⟩

example : reports "protocol P { record R { "
    [exEnd 24 ("mismatched input '<EOF>' expecting " ++ exSet)] =
    some [(22, 1, "line 1:24 unexpected end of file -- missing closing `}` for record")] := by
  decide +kernel

/-- C50, the mistakes that are named. -/
example : reports "protocol P { union {} x; }"
    [exError 20 ("mismatched input '}' expecting " ++ exSet)] =
    some [(13, 8, "line 1:20 union must contain at least one type member")] := by decide +kernel

example : reports "protocol P { record R { map<> x; } }"
    [exError 28 ("mismatched input '>' expecting " ++ exSet)] =
    some [(24, 5, "line 1:28 `map` type requires a type parameter")] := by decide +kernel

example : reports "protocol { }" [exError 9 ("mismatched input '{' expecting " ++ exSet)] =
    some [(9, 1, "line 1:9 expected name after `protocol`, found `{`")] := by decide +kernel

example : reports "protocol P { enum E { A, } }"
    [exError 25 ("mismatched input '}' expecting " ++ exSet)] =
    some [(23, 1, "line 1:25 trailing comma is not allowed in enum declaration")] := by
  decide +kernel

example : reports "protocol P { fixed F(x); }"
    [exError 22 ("mismatched input ')' expecting " ++ exSet)] =
    some [(21, 1, "line 1:22 fixed type requires an integer size -- use `fixed F(<integer>)`, \
      e.g., `fixed F(16)`")] := by decide +kernel

example : reports "protocol P { record R { int x; record S { } }"
    [exError 40 "mismatched input '{' expecting {';', ','}"] =
    some [(22, 1, "line 1:40 missing closing `}` for record")] := by decide +kernel

/-- The words that the theorems ask for: `Worded` with the quoted token. -/
example : Worded (exError 20 ("mismatched input '}' expecting " ++ exSet)) 20 1
    "unexpected token `}`".toList :=
  ⟨some "unexpected `}`".toList, some "expected one of: @, a, b, c, d, e, identifier, ".toList, by
    decide +kernel⟩

example : HasWords "`}`" "unexpected token `}`".toList ∧
    ¬ HasWords "`)`" "unexpected token `}`".toList := by
  refine ⟨⟨"unexpected token ".toList, [], rfl⟩, ?_⟩
  rintro ⟨a, b, h⟩
  have : ')' ∈ "unexpected token `}`".toList := by rw [h]; simp
  revert this
  decide

/-! ## Findings -/

theorem tokenSetChars_mem (s : List Char) : ∀ (cur : List Char) (q : Bool),
    ∀ t ∈ tokenSetChars cur q s, ∀ c ∈ t, c ∈ cur ∨ c ∈ s := by
  have htrim : ∀ (l : List Char) (c : Char), c ∈ trim l → c ∈ l := by
    intro l c hc
    unfold trim at hc
    obtain ⟨ws, hws, -⟩ := trimEnd_append (trimStart l)
    have h1 : c ∈ trimStart l := by rw [hws]; exact List.mem_append_left _ hc
    exact List.dropWhile_subset _ h1
  induction s with
  | nil =>
    intro cur q t ht c hc
    simp only [tokenSetChars] at ht
    split at ht
    · cases ht
    · rw [List.mem_singleton.1 ht] at hc
      exact .inl (htrim _ _ hc)
  | cons d s ih =>
    intro cur q t ht c hc
    simp only [tokenSetChars] at ht
    have step : ∀ {q}, t ∈ tokenSetChars (cur ++ [d]) q s → c ∈ cur ∨ c ∈ d :: s := by
      intro q h
      rcases ih _ _ t h c hc with h | h
      · rcases List.mem_append.1 h with h | h
        · exact .inl h
        · exact .inr (by simp at h; simp [h])
      · exact .inr (List.mem_cons_of_mem _ h)
    have fresh : ∀ {q}, t ∈ tokenSetChars [] q s → c ∈ cur ∨ c ∈ d :: s := by
      intro q h
      rcases ih _ _ t h c hc with h | h
      · cases h
      · exact .inr (List.mem_cons_of_mem _ h)
    split at ht
    · exact step ht
    · split at ht
      · split at ht
        · exact fresh ht
        · rcases List.mem_cons.1 ht with rfl | ht
          · exact .inl (htrim _ _ hc)
          · exact fresh ht
      · exact step ht

/-- **C50, finding.**  The set of expected tokens is cut at the first closing brace, even if it is in
quotes.  So the code never notices that a closing brace was expected: whatever the parser's message,
it is not rewritten to the report that is meant for this case. -/
theorem C50_fails_close_brace (msg : List Char) :
    ∃ r, simplifyExpecting msg = some r ∧ ∀ x, r = some x →
      x.message ≠ "unexpected end of file -- missing closing `}`".toList := by
  have hut : ∀ (t : List Char) (help : Option (List Char)) (b : Bool),
      Ok ((unexpectedToken t help b false).map some) fun r => ∀ x, r = some x →
        x.message ≠ "unexpected end of file -- missing closing `}`".toList := by
    intro t help b
    have hne : ∀ l : List Char, "unexpected token ".toList ++ l ≠
        "unexpected end of file -- missing closing `}`".toList := by
      intro l h
      have := congrArg (fun l => l[11]?) h
      revert this
      simp
    unfold unexpectedToken
    split
    · refine ⟨_, rfl, fun x hx => ?_⟩
      cases hx
      show "unexpected end of file".toList ≠ _
      decide
    · split
      · refine ⟨_, rfl, fun x hx => ?_⟩
        cases hx
        simp only [List.append_assoc]
        exact hne _
      · refine .map (P := fun y => ∃ l, y.message = "unexpected token ".toList ++ l) ?_ fun y hy x hx => ?_
        · refine .bind (P := fun _ => True) ?_ fun o _ => ?_
          · split
            · exact suggestKeyword_ok _
            · exact .pure trivial
          · split
            · exact .pure ⟨_, by simp only [List.append_assoc]; rfl⟩
            · exact .pure ⟨_, rfl⟩
        · cases hx
          obtain ⟨l, hl⟩ := hy
          rw [hl]
          exact hne l
  show Ok _ _
  unfold simplifyExpecting
  refine .bind (expectingTokens_ok msg) fun o ho => ?_
  split
  · exact .pure fun _ h => by cases h
  · rename_i tokens
    split
    · exact .pure fun _ h => by cases h
    · have hb : expectsCloseBrace tokens = some false := by
        unfold expectsCloseBrace
        rw [splitTokenSet_chars]
        simp only [Option.map_some, Option.some.injEq]
        cases hc : (tokenSetChars [] false tokens).contains "'}'".toList with
        | false => rfl
        | true =>
          exfalso
          have hm := List.contains_iff_mem.1 hc
          rcases tokenSetChars_mem tokens [] false _ hm '}' (by decide) with h | h
          · cases h
          · exact ho tokens rfl h
      rw [hb]
      simp only [Option.bind_eq_bind, Option.bind_some]
      refine .bind (quotedToken_ok _ _) fun a _ => ?_
      split
      · exact hut _ _ _
      · refine .bind (quotedToken_ok _ _) fun a _ => ?_
        split
        · exact hut _ _ _
        · exact .pure fun _ h => by cases h

/-- **C50, finding.**  For the same reason the help leaves out the closing brace and all tokens that
are listed after it, and ends with a comma. -/
theorem C50_fails_help : (listen none (exError 0
    "mismatched input 'x' expecting {'a', 'b', 'c', 'd', 'e', '}', 'f'}")).map (·.help) =
    some (some "expected one of: a, b, c, d, e, ".toList) := by decide +kernel

/-- **C50, finding.**  A comma among the expected tokens is lost in the help; two commas are left. -/
theorem C50_fails_help_comma : (listen none (exError 0
    "mismatched input 'x' expecting {'a', 'b', ',', 'c', 'd'}")).map (·.help) =
    some (some "expected one of: a, b, , c, d".toList) := by decide +kernel

/-- **C50, finding.**  If at most five tokens are expected, the end of the file is not recognised:
the message shows the parser's name for it, and the brace that is never closed is not pointed at. -/
theorem C50_fails_small_set : Unclosed "enum E { A".toList 7 ∧
    reports "enum E { A" [exEnd 10 "mismatched input '<EOF>' expecting {',', '}'}"] =
      some [(10, 1, "line 1:10 unexpected '<EOF>' expected ',' or '}'")] := by
  refine ⟨⟨"enum E ".toList, " A".toList, [], rfl, rfl, ?_, ?_, .inl rfl⟩, by decide +kernel⟩
  · repeat' first
      | exact .nil
      | refine .char (by decide) ?_
  · repeat' first
      | exact .nil
      | refine .char (by decide) (by decide) (by decide) ?_

/-- **C50, finding.**  Braces in comments are counted: the report points into the comment. -/
theorem C50_fails_comment : reports "protocol P { /* { */ "
    [exEnd 21 ("mismatched input '<EOF>' expecting " ++ exSet)] =
    some [(16, 1, "line 1:21 unexpected end of file -- missing closing `}`")] := by decide +kernel

/-- **C50, finding.**  A token whose text is like the parser's words is taken for them. -/
theorem C50_fails_like_message : reports "protocol P { \"expecting {\" }"
    [⟨some ⟨13, 25⟩, 1, 13, "extraneous input '\"expecting {\"' expecting {'@', '}'}".toList⟩] =
    some [(13, 13, "line 1:13 unexpected '\"expected \"' expected {'@', ''}")] := by decide +kernel

/-- **C50, finding.**  A trailing comma in a union is reported as one in an enum, if any enum comes
before. -/
theorem C50_fails_trailing_comma : reports "protocol P { enum E { A } union { null, } x; }"
    [exError 40 "mismatched input '}' expecting {'a', 'b'}"] =
    some [(38, 1, "line 1:40 trailing comma is not allowed in enum declaration")] := by
  decide +kernel

/-- **C50, finding.**  Names that end like a keyword are taken for the keyword. -/
theorem C50_fails_name_end : reports "protocol P { record R { bitmap<> x; } }"
      [exError 31 "extraneous input '>' expecting {'a', 'b'}"] =
        some [(27, 5, "line 1:31 `map` type requires a type parameter")] ∧
    reports "protocol P { record R { myunion {} x; } }"
      [exError 33 ("mismatched input '}' expecting " ++ exSet)] =
        some [(26, 8, "line 1:33 union must contain at least one type member")] := by
  constructor <;> decide +kernel

end Avdl.Props

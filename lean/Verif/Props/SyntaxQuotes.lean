import Verif.Props.SyntaxAnnotations
/-!
# Reports on missing quotes (C50)
-/

namespace Avdl.Props
open Spec Lemmas

theorem splitAt_none {x : Char} {a : List Char} (h : x ∉ a) : splitAt x a = [a] := by
  induction a with
  | nil => rfl
  | cons c a ih =>
    simp only [List.mem_cons, not_or] at h
    rw [splitAt, if_neg (Ne.symm h.1), ih h.2]

theorem splitAt_first {x : Char} {a : List Char} (h : x ∉ a) (b : List Char) :
    splitAt x (a ++ x :: b) = a :: splitAt x b := by
  induction a with
  | nil => simp [splitAt]
  | cons c a ih =>
    simp only [List.mem_cons, not_or] at h
    rw [List.cons_append, splitAt, if_neg (Ne.symm h.1), ih h.2]

theorem splitAt_space (t : List Char) (ts : List (List Char)) (h : ∀ u ∈ t :: ts, ',' ∉ u) :
    splitAt ',' (separated ", " (t :: ts)) = t :: ts.map (' ' :: ·) := by
  induction ts generalizing t with
  | nil => exact splitAt_none (h t (by simp))
  | cons u ts ih =>
    have e : (", " : String).toList = [',', ' '] := by decide
    have hu := ih u fun v hv => h v (List.mem_cons_of_mem _ hv)
    have hsp : ∀ s w ws, splitAt ',' s = w :: ws → splitAt ',' (' ' :: s) = (' ' :: w) :: ws := by
      intro s w ws hs
      rw [splitAt, if_neg (by decide), hs]
    simp only [separated, e]
    rw [show t ++ [',', ' '] ++ separated ", " (u :: ts) =
      t ++ ',' :: (' ' :: separated ", " (u :: ts)) from by simp,
      splitAt_first (h t (by simp)), hsp _ _ _ hu]
    rfl

theorem not_mem_separated {x : Char} (hx : x ∉ (", " : String).toList) :
    ∀ ts : List (List Char), (∀ u ∈ ts, x ∉ u) → x ∉ separated ", " ts
  | [], _ => by simp [separated]
  | [t], h => h t (by simp)
  | t :: u :: ts, h => by
      simp only [separated, List.mem_append, not_or]
      exact ⟨⟨h t (by simp), hx⟩, not_mem_separated hx (u :: ts) fun v hv =>
        h v (List.mem_cons_of_mem _ hv)⟩

theorem quotedToken_head {pre : String} {token rest : List Char} (h : '\'' ∉ token) :
    quotedToken (pre.toList ++ ('\'' :: token ++ '\'' :: rest)) pre = some (some token) := by
  unfold quotedToken
  rw [findStr_head]
  simp only [Nat.zero_add, sliceFrom_append, Option.bind_eq_bind, Option.bind_some]
  have h1 : startsWith "'" ('\'' :: token ++ '\'' :: rest) = true :=
    startsWith_append.2 ⟨token ++ '\'' :: rest, rfl⟩
  have h2 : sliceFrom ('\'' :: token ++ '\'' :: rest) 1 = some (token ++ '\'' :: rest) :=
    sliceFrom_append ['\''] (token ++ '\'' :: rest)
  have h3 : findStr ['\''] (token ++ '\'' :: rest) = some (utf8Len token) := by
    have := findStr_first (pat := ['\'']) (x := []) (z := '\'') rfl (by simp) (a := token)
      (b := rest) (by
        rintro ⟨p, q, rfl⟩
        exact h (by simp))
    simpa using this
  have h4 : slice ('\'' :: token ++ '\'' :: rest) 1 (1 + utf8Len token) = some token := by
    have := slice_append ['\''] token ('\'' :: rest)
    rw [show utf8Len ['\''] = 1 from rfl] at this
    simpa using this
  simp only [h1, h2, h3, h4, Bool.not_true, Bool.false_eq_true, if_false, Option.bind_some,
    Option.map_some]

theorem findStr_absent {w : String} {s : List Char} (h : ¬ HasWords w s) :
    findStr w.toList s = none := by
  cases hf : findStr w.toList s with
  | none => rfl
  | some n =>
    obtain ⟨p, q, hs, -⟩ := findStr_some hf
    exact absurd ⟨p, q, hs⟩ h

/-- A text that begins with something else than white space is not trimmed away. -/
theorem trim_first {d : Char} {r : List Char} (h : isWhitespace d = false) :
    ∃ w, trim (d :: r) = d :: w := by
  have hs : trim (d :: r) = trimEnd (d :: r) := by
    unfold trim trimStart
    rw [List.dropWhile_cons, h]
    rfl
  rw [hs]
  obtain ⟨ws, hw, hall⟩ := trimEnd_append (d :: r)
  cases ht : trimEnd (d :: r) with
  | nil =>
    rw [ht, List.nil_append] at hw
    have := hall d (by rw [← hw]; simp)
    rw [h] at this
    cases this
  | cons c w =>
    rw [ht, List.cons_append, List.cons.injEq] at hw
    exact ⟨w, by rw [hw.1]⟩

/-- **C50, missing quotes.**  If the parser wants one of more than five things, a string among them, and
finds a name, the report suggests to put the name in quotes. -/
theorem C50_quotes {source : Option (List Char)} {e : RawError} {kind : String} {token : List Char}
    {tokens : List (List Char)} (hm : e.message = expecting kind token tokens)
    (hk : kind = "extraneous input " ∨
      kind = "mismatched input " ∧ ¬ HasWords "extraneous input " e.message)
    (ht : ∀ t ∈ tokens, TokenName t ∧ ',' ∉ t ∧ '}' ∉ t) (hlen : 5 < tokens.length)
    (hs : "StringLiteral".toList ∈ tokens) (hi : SymbolName token)
    (hno : ¬ HasWords "no viable alternative at input '" e.message)
    (hpar : ¬ HasWords "expecting '('" e.message) :
    ∃ x, listen source e = some x ∧ x.message = positionText e.line e.column ++
      " unexpected token `".toList ++ token ++ "` -- did you mean `\"".toList ++ token ++
        "\"`?".toList := by
  obtain ⟨c, cs, hw, hc, hcs, hnn⟩ := hi
  have hout : ∀ d, d.isAlphanum = false → d ≠ '_' → d ∉ token := by
    intro d h1 h2 hd
    rw [hw] at hd
    rcases List.mem_cons.1 hd with rfl | hd
    · rcases hc with h | h
      · simp [Char.isAlphanum, h] at h1
      · exact h2 h
    · rcases hcs d hd with h | h
      · rw [h1] at h; cases h
      · exact h2 h
  have hq : '\'' ∉ token := hout _ (by decide) (by decide)
  -- the parts of the message
  have e1 : " expecting {".toList = [' '] ++ "expecting {".toList := by decide +kernel
  have m1 : e.message = kind.toList ++ ('\'' :: token ++ '\'' ::
      (" expecting {".toList ++ separated ", " tokens ++ ['}'])) := by
    have eq1 : "'".toList = ['\''] := by decide
    have eq2 : "}".toList = ['}'] := by decide
    rw [hm, expecting, eq1, eq2]
    simp only [List.append_assoc, List.cons_append, List.nil_append]
  have m2 : e.message = (kind.toList ++ ('\'' :: token ++ ['\'', ' '])) ++ "expecting {".toList ++
      (separated ", " tokens ++ ['}']) := by
    rw [m1, e1]
    simp only [List.append_assoc, List.cons_append, List.nil_append]
  have hset : '}' ∉ separated ", " tokens :=
    not_mem_separated (by decide) tokens fun u hu => (ht u hu).2.2
  have hbr : '{' ∉ kind.toList ++ ('\'' :: token ++ ['\'', ' ']) := by
    have : '{' ∉ kind.toList := by
      rcases hk with rfl | ⟨rfl, -⟩ <;> decide
    simp only [List.mem_append, List.mem_cons, not_or, List.not_mem_nil, not_false_eq_true, and_true,
      List.cons_append]
    exact ⟨this, by decide, hout _ (by decide) (by decide), by decide, by decide⟩
  have g1 : expectingTokens e.message = some (some (separated ", " tokens)) := by
    have hf : findStr "expecting {".toList e.message =
        some (utf8Len (kind.toList ++ ('\'' :: token ++ ['\'', ' ']))) := by
      rw [m2]
      refine findStr_first (x := "expecting ".toList) (z := '{') (by decide +kernel) (by decide) ?_
      rintro ⟨p, q, h⟩
      apply hbr
      rw [h]
      simp
    have h11 : utf8Len "expecting {".toList = 11 := by decide +kernel
    generalize hpre : kind.toList ++ ('\'' :: token ++ ['\'', ' ']) = pre at *
    have hfr : sliceFrom e.message (utf8Len pre + 11) = some (separated ", " tokens ++ ['}']) := by
      rw [m2, ← h11, ← utf8Len_append]
      exact sliceFrom_append _ _
    have hcl : findStr ['}'] (separated ", " tokens ++ ['}']) =
        some (utf8Len (separated ", " tokens)) := by
      have := findStr_first (pat := ['}']) (x := []) (z := '}') rfl (by simp)
        (a := separated ", " tokens) (b := []) (by
          rintro ⟨p, q, h⟩
          exact hset (by rw [h]; simp))
      simpa using this
    have hsl : slice e.message (utf8Len pre + 11) (utf8Len pre + 11 +
        utf8Len (separated ", " tokens)) = some (separated ", " tokens) := by
      have := slice_append (pre ++ "expecting {".toList) (separated ", " tokens) ['}']
      rw [utf8Len_append, h11] at this
      rw [m2]
      simpa only [List.append_assoc] using this
    unfold expectingTokens
    rw [hf]
    simp only [hfr, hcl, hsl, Option.bind_eq_bind, Option.bind_some, Option.map_some]
  obtain ⟨t, ts, rfl⟩ : ∃ t ts, tokens = t :: ts := by
    cases tokens with
    | nil => simp at hlen
    | cons t ts => exact ⟨t, ts, rfl⟩
  have hsplit := splitAt_space t ts fun u hu => (ht u hu).2.1
  have g2 : ¬ countTokens (separated ", " (t :: ts)) ≤ 5 := by
    unfold countTokens
    rw [hsplit]
    split
    · rename_i h
      obtain ⟨hne, hst, -⟩ := (ht t (by simp)).1.ends
      obtain ⟨d, r, rfl⟩ := List.exists_cons_of_ne_nil hne
      have hd := hst d r rfl
      obtain ⟨r', hr'⟩ : ∃ r', separated ", " ((d :: r) :: ts) = d :: r' := by
        cases ts with
        | nil => exact ⟨r, rfl⟩
        | cons u ts => exact ⟨_, rfl⟩
      rw [hr'] at h
      obtain ⟨w, hw'⟩ := trim_first (r := r') hd
      rw [hw'] at h
      cases h
    · simp only [List.length_cons, List.length_map] at hlen ⊢
      omega
  have g3 : expectsString (separated ", " (t :: ts)) = true := by
    have hS : ∀ s, s = "StringLiteral".toList ∨ s = ' ' :: "StringLiteral".toList →
        decide (trimMatches '\'' (trim s) = "StringLiteral".toList) = true := by
      rintro s (rfl | rfl) <;> decide +kernel
    unfold expectsString
    rw [hsplit, List.any_eq_true]
    rcases List.mem_cons.1 hs with h | h
    · exact ⟨t, by simp, hS t (.inl h.symm)⟩
    · exact ⟨' ' :: "StringLiteral".toList, List.mem_cons_of_mem _ (List.mem_map.2 ⟨_, h, rfl⟩),
        hS _ (.inr rfl)⟩
  obtain ⟨brace, g4⟩ : ∃ b, expectsCloseBrace (separated ", " (t :: ts)) = some b := by
    unfold expectsCloseBrace
    rw [splitTokenSet_chars]
    exact ⟨_, rfl⟩
  have g5 : ∃ help, unexpectedToken token (expectedHelp (separated ", " (t :: ts))) true brace =
      some ⟨"unexpected token ".toList ++ quoted token ++ " -- did you mean `\"".toList ++
        token ++ "\"`?".toList, some ("unexpected ".toList ++ quoted token ++
          " -- did you mean `\"".toList ++ token ++ "\"`?".toList), some help⟩ := by
    refine ⟨quotingHint (expectedHelp (separated ", " (t :: ts))) token, ?_⟩
    have hl : looksLikeIdentifier token = true := by
      rw [hw, looksLikeIdentifier, ← hw, if_neg, if_neg, List.all_eq_true]
      · intro d hd
        rcases hcs d hd with h | rfl
        · simp [asciiAlnum, h]
        · rfl
      · rcases hc with h | rfl
        · simp [h]
        · decide
      · simpa [not_or] using hnn
    unfold unexpectedToken
    rw [if_neg (by
      rintro rfl
      exact hout '<' (by decide) (by decide) (by decide)), if_pos (by simp [hl])]
  obtain ⟨help, g5⟩ := g5
  have g6 : simplifyExpecting e.message = some (some ⟨"unexpected token ".toList ++ quoted token ++
        " -- did you mean `\"".toList ++ token ++ "\"`?".toList, some ("unexpected ".toList ++
          quoted token ++ " -- did you mean `\"".toList ++ token ++ "\"`?".toList), some help⟩) := by
    unfold simplifyExpecting
    simp only [g1, Option.bind_eq_bind, Option.bind_some, if_neg g2, g3, g4]
    rcases hk with rfl | ⟨rfl, hne⟩
    · rw [m1, quotedToken_head hq]
      simp only [Option.bind_some, g5, Option.map_some]
    · have : quotedToken e.message "extraneous input " = some none := by
        unfold quotedToken
        rw [findStr_absent hne]
      rw [this, m1, quotedToken_head hq]
      simp only [Option.bind_some, g5, Option.map_some]
  have h1 : noViableInput e.message = some none := by
    unfold noViableInput
    rw [findStr_absent hno]
  have h2 : containsStr "expecting '('" e.message = false := by
    unfold containsStr
    rw [findStr_absent hpar]
    rfl
  have hl : listen source e = some ⟨(syntaxErrorSpan e.offending source e.line e.column).1,
      (syntaxErrorSpan e.offending source e.line e.column).2, linePart e.line e.column ++
        ("unexpected token ".toList ++ quoted token ++ " -- did you mean `\"".toList ++
          token ++ "\"`?".toList), some ("unexpected ".toList ++ quoted token ++
            " -- did you mean `\"".toList ++ token ++ "\"`?".toList), some help⟩ := by
    unfold listen enrich
    simp only [h1, h2, g6, Option.any_none, Option.bind_eq_bind, Option.bind_some, Bool.false_and,
      Bool.false_eq_true, if_false]
  refine ⟨_, hl, ?_⟩
  have e2 : " unexpected token `".toList = [' '] ++ "unexpected token ".toList ++ "`".toList := by
    decide +kernel
  have e3 : "` -- did you mean `\"".toList = "`".toList ++ " -- did you mean `\"".toList := by
    decide +kernel
  rw [positionText_eq, e2, e3]
  simp only [quoted, List.append_assoc]

/-! ## Example -/

/-- The parser's words for an enum default without quotes. -/
def exQuotes : RawError := exError 28 ("mismatched input 'A' expecting {'null', 'true', " ++
  "'false', IntegerLiteral, FloatingPointLiteral, StringLiteral}")

example : reports "protocol P { enum E { A } = A; }" [exQuotes] =
    some [(28, 1, "line 1:28 unexpected token `A` -- did you mean `\"A\"`?")] := by decide +kernel

/-- The theorem applies. -/
example : ∃ x, listen none exQuotes = some x ∧ x.message = positionText 1 28 ++
    " unexpected token `".toList ++ ['A'] ++ "` -- did you mean `\"".toList ++ ['A'] ++
      "\"`?".toList := by
  have hw : ∀ w : String, containsStr w exQuotes.message = false → ¬ HasWords w exQuotes.message := by
    intro w h hh
    rw [containsStr_iff.2 hh] at h
    cases h
  have hq : ∀ b : List Char, '\'' ∉ b → TokenName ('\'' :: b ++ ['\'']) := fun b hb => .inr ⟨b, rfl, hb⟩
  have hp : ∀ t : List Char, t ≠ [] →
      (∀ c ∈ t, c ≠ '\'' ∧ c ≠ ',' ∧ c ≠ '}' ∧ isWhitespace c = false) → TokenName t :=
    fun t hne h => .inl ⟨hne, h⟩
  refine C50_quotes (kind := "mismatched input ") (token := ['A'])
    (tokens := ["'null'", "'true'", "'false'", "IntegerLiteral", "FloatingPointLiteral",
      "StringLiteral"].map String.toList) (by decide +kernel)
    (.inr ⟨rfl, hw _ (by decide +kernel)⟩) ?_ (by decide) (by decide +kernel)
    ⟨'A', [], rfl, by decide, by simp, by decide +kernel⟩ (hw _ (by decide +kernel))
    (hw _ (by decide +kernel))
  intro t ht
  simp only [List.map_cons, List.map_nil, List.mem_cons, List.not_mem_nil, or_false] at ht
  rcases ht with rfl | rfl | rfl | rfl | rfl | rfl
  · exact ⟨hq "null".toList (by decide), by decide, by decide⟩
  · exact ⟨hq "true".toList (by decide), by decide, by decide⟩
  · exact ⟨hq "false".toList (by decide), by decide, by decide⟩
  · exact ⟨hp _ (by decide) (by decide), by decide, by decide⟩
  · exact ⟨hp _ (by decide) (by decide), by decide, by decide⟩
  · exact ⟨hp _ (by decide) (by decide), by decide, by decide⟩

end Avdl.Props

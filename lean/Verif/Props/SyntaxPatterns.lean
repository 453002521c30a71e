import Verif.Lemmas.SyntaxPatterns
import Verif.Props.SyntaxMessages
/-!
# Common mistakes are named (C50)

For some mistakes the report is not the parser's, but names the mistake.  Each theorem describes a
mistake in the text, supposes that the parser's first error is at the token where the mistake shows,
and says what is reported and where.  How the parser's error is worded before is left open, except
where the code looks at it.
-/

namespace Avdl.Props
open Spec

/-- The error of the parser is at this place, and says this after the position. -/
def Worded (e : RawError) (offset length : Nat) (words : List Char) : Prop :=
  ∃ label help, listen none e =
    some ⟨offset, length, positionText e.line e.column ++ " ".toList ++ words, label, help⟩

/-- The one report is at this place and says this after the position. -/
def OnlyReport (text : List Char) (parser : List RawError) (offset length : Nat)
    (message : List Char) : Prop :=
  ∃ main, syntaxOutcome text [] parser = some (.failed main []) ∧ main.offset = offset ∧
    main.length = length ∧ main.message = message

theorem firstFound_skip {x : SyntaxErr} {s : List Char}
    {d : SyntaxErr → List Char → Option (Option SyntaxErr)} {ds} (h : d x s = some none) :
    firstFound x s (d :: ds) = firstFound x s ds := by
  simp only [firstFound, h]
  rfl

theorem firstFound_hit {x r : SyntaxErr} {s : List Char}
    {d : SyntaxErr → List Char → Option (Option SyntaxErr)} {ds} (h : d x s = some (some r)) :
    firstFound x s (d :: ds) = some (some r) := by
  simp only [firstFound, h]
  rfl

/-- The error of the parser at a token of one character. -/
structure AtToken (text before : List Char) (d : Char) (e : RawError) (es : List RawError)
    (m : List Char) (x : SyntaxErr) (xs : List SyntaxErr) : Prop where
  offset : x.offset = utf8Len before
  length : x.length = 1
  message : x.message = linePart e.line e.column ++ m
  refined : Refined text e.line e.column x
  shown : errorText x text = some [d]
  cut : sliceTo text x.offset = some before
  count : xs.length = es.length
  outcome : ∀ r, refine (x :: xs) text = some [r] →
    syntaxOutcome text [] (e :: es) = some (.failed r [])

theorem atToken {text before after : List Char} {d : Char} {e : RawError} {es : List RawError}
    {m : List Char} (hd : d.utf8Size = 1) (ht : text = before ++ d :: after)
    (hw : Worded e (utf8Len before) 1 m) (hes : ∀ e ∈ es, TokenIn text e.offending) :
    ∃ x xs, AtToken text before d e es m x xs := by
  obtain ⟨label, help, hx⟩ := hw
  obtain ⟨xs, hxs, hlen, -⟩ := listenAll_parser hes
  have hm : positionText e.line e.column ++ " ".toList ++ m = linePart e.line e.column ++ m := by
    rw [positionText_eq]; rfl
  refine ⟨⟨utf8Len before, 1, positionText e.line e.column ++ " ".toList ++ m, label, help⟩, xs, rfl,
    rfl, hm, ⟨⟨before, d :: after, ht, rfl⟩, ?_, m, hm⟩, ?_, ?_, hlen, ?_⟩
  · rw [ht, utf8Len_append]
    simp only [utf8Len]
    omega
  · exact slice_ok (p := before) (w := [d]) (q := after) (by rw [ht]; simp) rfl
      (by simp only [utf8Len]; omega)
  · rw [ht]; exact sliceTo_append _ _
  · intro r hr
    unfold syntaxOutcome
    simp only [listenAll, hx, hxs, Option.bind_eq_bind, Option.bind_some, List.isEmpty_cons,
      Bool.false_eq_true, if_false, List.find?_nil, hr]

theorem refine_hit {x r : SyntaxErr} {xs : List SyntaxErr} {s : List Char}
    (h : firstFound x s ([detectEmptyUnion, detectEmptyTypeParameter, detectFixedNonInteger,
      detectMissingName, detectTrailingComma] ++ (if xs.isEmpty then [] else [detectMisspelled]) ++
      [detectMissingCloseBrace]) = some (some r)) : refine (x :: xs) s = some [r] := by
  unfold refine
  simp only
  rw [h]
  rfl

theorem detectEmptyUnion_none {x : SyntaxErr} {s before : List Char}
    (h : sliceTo s x.offset = some before) (hb : endsWith "{" (trimEnd before) = false) :
    detectEmptyUnion x s = some none := by
  unfold detectEmptyUnion
  rw [h]
  simp only [Option.bind_eq_bind, Option.bind_some, hb]
  split <;> rfl

theorem detectEmptyTypeParameter_none {x : SyntaxErr} {s : List Char} {d : Char}
    (h : errorText x s = some [d]) (hd : isWhitespace d = false) (hne : d ≠ '>') :
    detectEmptyTypeParameter x s = some none := by
  unfold detectEmptyTypeParameter
  rw [h]
  have : trim [d] = [d] := by
    simp [trim, trimStart, trimEnd, hd]
  simp only [this]
  rw [if_pos (by simpa using hne)]

theorem detectMissingName_none {x : SyntaxErr} {s : List Char} {d : Char}
    (h : errorText x s = some [d]) (hd : isWhitespace d = false) (hne : d ≠ '{') :
    detectMissingName x s = some none := by
  unfold detectMissingName
  rw [h]
  have : trim [d] = [d] := by
    simp [trim, trimStart, trimEnd, hd]
  simp only [this]
  rw [if_pos (by simpa using hne)]

theorem detectTrailingComma_none {x : SyntaxErr} {s : List Char} {d : Char}
    (h : errorText x s = some [d]) (hd : isWhitespace d = false) (hne : d ≠ '}') :
    detectTrailingComma x s = some none := by
  unfold detectTrailingComma
  rw [h]
  have : trim [d] = [d] := by
    simp [trim, trimStart, trimEnd, hd]
  simp only [this]
  rw [if_pos (by simpa using hne)]

theorem notMem_position {d : Char} (l c : Nat) (h : d ∉ "line : ".toList) (hd : d.isDigit = false) :
    d ∉ positionText l c := by
  intro hm
  apply notMem_linePart l c h hd
  rw [positionText_eq]
  exact List.mem_append_left _ hm

/-- Words that begin with a backquote can only be in the message itself. -/
theorem hasWords_message {w : String} {ws : List Char} (hw : w.toList = '`' :: ws) {l c : Nat}
    {m : List Char} (h : containsStr w (linePart l c ++ m) = true) : HasWords w m := by
  obtain ⟨p, q, hpq⟩ := containsStr_iff.1 h
  rw [List.append_assoc] at hpq
  rcases List.append_eq_append_iff.1 hpq with ⟨a, rfl, ha⟩ | ⟨a, ha, ha'⟩
  · exact ⟨a, q, by rw [ha]; simp⟩
  · cases a with
    | nil => exact ⟨[], q, by simpa using ha'.symm⟩
    | cons y ys =>
      exfalso
      apply notMem_linePart (d := '`') l c (by decide) (by decide)
      rw [ha]
      rw [hw] at ha'
      simp only [List.cons_append, List.cons.injEq] at ha'
      rw [← ha'.1]
      simp

theorem containsStr_message {w : String} {l c : Nat} {m : List Char} (h : HasWords w m) :
    containsStr w (linePart l c ++ m) = true := by
  obtain ⟨p, q, rfl⟩ := h
  exact containsStr_iff.2 ⟨linePart l c ++ p, q, by simp⟩

theorem detectFixedNonInteger_none {x : SyntaxErr} {s m : List Char} {l c : Nat}
    (hx : x.message = linePart l c ++ m) (h : ¬ HasWords "`)`" m) :
    detectFixedNonInteger x s = some none := by
  unfold detectFixedNonInteger
  have : containsStr "`)`" x.message = false := by
    cases hc : containsStr "`)`" x.message with
    | false => rfl
    | true =>
      rw [hx] at hc
      exact absurd (hasWords_message rfl hc) h
  rw [this]
  rfl

/-- **C50, type parameter.**  `map<>` and `array<>` are reported as a missing type parameter, from the
keyword to the `>`. -/
theorem C50_empty_type_parameter {p w w' rest m : List Char} {kw : String} {e : RawError}
    {es : List RawError} (hk : kw = "map" ∨ kw = "array") (hw : OnlyBlank w) (hw' : OnlyBlank w')
    (he : Worded e (utf8Len (p ++ kw.toList ++ w ++ ['<'] ++ w')) 1 m)
    (hes : ∀ e ∈ es, TokenIn (p ++ kw.toList ++ w ++ ['<'] ++ w' ++ '>' :: rest) e.offending) :
    OnlyReport (p ++ kw.toList ++ w ++ ['<'] ++ w' ++ '>' :: rest) (e :: es) (utf8Len p)
      (utf8Len (kw.toList ++ w ++ ['<'] ++ w' ++ ['>']))
      (positionText e.line e.column ++ " `".toList ++ kw.toList ++
        "` type requires a type parameter".toList) := by
  obtain ⟨x, xs, hx⟩ := atToken rfl rfl he hes
  have hdw : isWhitespace '<' = false := by decide
  have htrim : trimEnd (p ++ kw.toList ++ w ++ ['<'] ++ w') = p ++ kw.toList ++ w ++ ['<'] :=
    trimEnd_blank hdw hw'
  have htrim2 : trimEnd (p ++ kw.toList ++ w) = p ++ kw.toList := by
    rcases hk with rfl | rfl
    · exact trimEnd_word (bq := false) (by decide) (by decide) hw
    · exact trimEnd_word (bq := false) (by decide) (by decide) hw
  have hdet : ∃ r, detectEmptyTypeParameter x (p ++ kw.toList ++ w ++ ['<'] ++ w' ++ '>' :: rest) =
      some (some r) ∧ r.offset = utf8Len p ∧
      r.length = utf8Len (kw.toList ++ w ++ ['<'] ++ w' ++ ['>']) ∧
      r.message = linePart e.line e.column ++ quoted kw.toList ++
        " type requires a type parameter".toList := by
    unfold detectEmptyTypeParameter
    have : trim ['>'] = ['>'] := by decide
    rw [hx.shown]
    simp only [this]
    rw [if_neg (by simp), hx.cut]
    simp only [Option.bind_eq_bind, Option.bind_some, htrim]
    rw [show endsWith "<" (p ++ kw.toList ++ w ++ ['<']) = true from endsWith_self "<" _]
    obtain ⟨hc1, hc2⟩ := cut_ok (s := p ++ kw.toList ++ w ++ ['<']) (p := p ++ kw.toList ++ w)
      (pat := "<") rfl (n := 1) rfl
    rw [hc1]
    simp only [Option.bind_some]
    rw [hc2]
    simp only [Option.bind_some, htrim2, Bool.not_true, Bool.false_eq_true, if_false]
    have hkw : (if endsWith "map" (p ++ kw.toList) = true then some "map"
        else if endsWith "array" (p ++ kw.toList) = true then some "array" else none) = some kw := by
      rcases hk with rfl | rfl
      · rw [endsWith_self]; rfl
      · rw [show p ++ "array".toList = (p ++ "arra".toList) ++ ['y'] from by simp,
          endsWith_other (pat := "map") (x := ['m', 'a']) rfl (by decide)]
        rw [show (p ++ "arra".toList) ++ ['y'] = p ++ "array".toList from by simp, endsWith_self]
        rfl
    rw [hkw]
    simp only
    rw [checkedSub_le (by rw [utf8Len_append]; omega), linePrefix_ok hx.refined]
    simp only [Option.bind_some]
    rw [checkedSub_le (by rw [hx.offset]; simp only [utf8Len_append]; omega)]
    simp only [Option.bind_some, Option.some.injEq]
    refine ⟨_, rfl, ?_, ?_, rfl⟩
    · simp only [utf8Len_append]; omega
    · simp only [hx.offset, hx.length, utf8Len_append]
      have : utf8Len ['>'] = 1 := rfl
      omega
  obtain ⟨r, hr, h1, h2, h3⟩ := hdet
  refine ⟨r, hx.outcome r (refine_hit ?_), h1, h2, ?_⟩
  · simp only [List.cons_append]
    rw [firstFound_skip (detectEmptyUnion_none hx.cut (by
      rw [htrim]; exact endsWith_other (x := []) rfl (by decide)))]
    exact firstFound_hit hr
  · rw [h3, positionText_eq]
    simp [quoted]

/-- **C50, union.**  `union {}` is reported as an empty union, from the keyword to the `}`. -/
theorem C50_empty_union {p w w' rest m : List Char} {e : RawError} {es : List RawError}
    (hw : OnlyBlank w) (hw' : OnlyBlank w') (hm : HasWords "`}`" m)
    (he : Worded e (utf8Len (p ++ "union".toList ++ w ++ ['{'] ++ w')) 1 m)
    (hes : ∀ e ∈ es, TokenIn (p ++ "union".toList ++ w ++ ['{'] ++ w' ++ '}' :: rest) e.offending) :
    OnlyReport (p ++ "union".toList ++ w ++ ['{'] ++ w' ++ '}' :: rest) (e :: es) (utf8Len p)
      (utf8Len ("union".toList ++ w ++ ['{'] ++ w' ++ ['}']))
      (positionText e.line e.column ++ " union must contain at least one type member".toList) := by
  obtain ⟨x, xs, hx⟩ := atToken rfl rfl he hes
  have htrim : trimEnd (p ++ "union".toList ++ w ++ ['{'] ++ w') = p ++ "union".toList ++ w ++ ['{'] :=
    trimEnd_blank (by decide) hw'
  have htrim2 : trimEnd (p ++ "union".toList ++ w) = p ++ "union".toList :=
    trimEnd_word (bq := false) (by decide) (by decide) hw
  have hdet : ∃ r, detectEmptyUnion x (p ++ "union".toList ++ w ++ ['{'] ++ w' ++ '}' :: rest) =
      some (some r) ∧ r.offset = utf8Len p ∧
      r.length = utf8Len ("union".toList ++ w ++ ['{'] ++ w' ++ ['}']) ∧
      r.message = linePart e.line e.column ++
        "union must contain at least one type member".toList := by
    unfold detectEmptyUnion
    rw [hx.cut, hx.message, containsStr_message hm]
    simp only [Option.bind_eq_bind, Option.bind_some, htrim]
    rw [show endsWith "{" (p ++ "union".toList ++ w ++ ['{']) = true from endsWith_self "{" _]
    obtain ⟨hc1, hc2⟩ := cut_ok (s := p ++ "union".toList ++ w ++ ['{'])
      (p := p ++ "union".toList ++ w) (pat := "{") rfl (n := 1) rfl
    rw [hc1]
    simp only [Option.bind_some]
    rw [hc2]
    simp only [Option.bind_some, htrim2, Bool.not_true, Bool.false_eq_true, if_false]
    rw [endsWith_self]
    simp only [Bool.not_true, Bool.false_eq_true, if_false]
    rw [(cut_ok (s := p ++ "union".toList) rfl (n := 5) rfl).1, ← hx.message,
      linePrefix_ok hx.refined]
    simp only [Option.bind_some]
    rw [checkedSub_le (by rw [hx.offset]; simp only [utf8Len_append]; omega)]
    simp only [Option.bind_some, Option.some.injEq]
    refine ⟨_, rfl, rfl, ?_, rfl⟩
    simp only [hx.offset, hx.length, utf8Len_append]
    have : utf8Len ['}'] = 1 := rfl
    omega
  obtain ⟨r, hr, h1, h2, h3⟩ := hdet
  refine ⟨r, hx.outcome r (refine_hit ?_), h1, h2, ?_⟩
  · simp only [List.cons_append]
    exact firstFound_hit hr
  · rw [h3, positionText_eq]
    simp

/-- **C50, missing name.**  A brace right after the keyword of a declaration is reported as a missing
name, at the brace. -/
theorem C50_missing_name {p w rest m : List Char} {kw : String} {e : RawError} {es : List RawError}
    (hk : kw ∈ ["protocol", "record", "enum", "fixed", "error"]) (hp : WordEnded p)
    (hw : OnlyBlank w) (hm : ¬ HasWords "`)`" m)
    (he : Worded e (utf8Len (p ++ kw.toList ++ w)) 1 m)
    (hes : ∀ e ∈ es, TokenIn (p ++ kw.toList ++ w ++ '{' :: rest) e.offending) :
    OnlyReport (p ++ kw.toList ++ w ++ '{' :: rest) (e :: es) (utf8Len (p ++ kw.toList ++ w)) 1
      (positionText e.line e.column ++ " expected name after `".toList ++ kw.toList ++
        "`, found `{`".toList) := by
  obtain ⟨x, xs, hx⟩ := atToken rfl rfl he hes
  have hne : kw.toList ≠ [] := by
    clear he hes hx; revert hk; revert kw; decide
  have hwc : ∀ c ∈ kw.toList, wordChar false c = true := by
    clear he hes hx hne; revert hk; revert kw; decide
  have htrim : trimEnd (p ++ kw.toList ++ w) = p ++ kw.toList := trimEnd_word hne hwc hw
  have hdet : ∃ r, detectMissingName x (p ++ kw.toList ++ w ++ '{' :: rest) =
      some (some r) ∧ r.offset = x.offset ∧ r.length = x.length ∧
      r.message = linePart e.line e.column ++ "expected name after ".toList ++ quoted kw.toList ++
        ", found `{`".toList := by
    unfold detectMissingName
    have : trim ['{'] = ['{'] := by decide
    rw [hx.shown]
    simp only [this]
    rw [if_neg (by simp), hx.cut]
    simp only [Option.bind_eq_bind, Option.bind_some, htrim]
    rw [lastWord_eq hne hwc hp.not]
    simp only [Option.bind_some]
    rw [linePrefix_ok hx.refined]
    have hcon : ∃ what, (if kw.toList = "protocol".toList then some "protocol"
        else if kw.toList = "record".toList then some "record"
        else if kw.toList = "enum".toList then some "enum"
        else if kw.toList = "fixed".toList then some "fixed"
        else if kw.toList = "error".toList then some "error record"
        else none) = some what := by
      simp only [List.mem_cons, List.not_mem_nil, or_false] at hk
      rcases hk with rfl | rfl | rfl | rfl | rfl <;> exact ⟨_, rfl⟩
    obtain ⟨what, hwhat⟩ := hcon
    rw [hwhat]
    simp only [Option.bind_some]
    obtain ⟨⟨a, ha⟩, b, hb⟩ : (∃ a, sliceTo kw.toList 1 = some a) ∧
        ∃ b, sliceFrom kw.toList 1 = some b := by
      simp only [List.mem_cons, List.not_mem_nil, or_false] at hk
      rcases hk with rfl | rfl | rfl | rfl | rfl <;> exact ⟨⟨_, rfl⟩, _, rfl⟩
    rw [ha, hb]
    simp only [Option.bind_some, Option.some.injEq]
    exact ⟨_, rfl, rfl, rfl, rfl⟩
  obtain ⟨r, hr, h1, h2, h3⟩ := hdet
  refine ⟨r, hx.outcome r (refine_hit ?_), by rw [h1, hx.offset], by rw [h2, hx.length], ?_⟩
  · simp only [List.cons_append]
    rw [firstFound_skip (detectEmptyUnion_none hx.cut (by
      rw [htrim]; exact endsWith_word (x := []) rfl (by decide) hne hwc)),
      firstFound_skip (detectEmptyTypeParameter_none hx.shown (by decide) (by decide)),
      firstFound_skip (detectFixedNonInteger_none hx.message hm)]
    exact firstFound_hit hr
  · rw [h3, positionText_eq]
    simp [quoted]

/-- **C50, trailing comma.**  A comma after the last symbol of an enum is reported at the comma. -/
theorem C50_trailing_comma {p q1 q2 w rest m : List Char} {e : RawError} {es : List RawError}
    (hw : OnlyBlank w) (hm : ¬ HasWords "`)`" m)
    (he : Worded e (utf8Len (p ++ "enum".toList ++ q1 ++ ['{'] ++ q2 ++ [','] ++ w)) 1 m)
    (hes : ∀ e ∈ es, TokenIn (p ++ "enum".toList ++ q1 ++ ['{'] ++ q2 ++ [','] ++ w ++ '}' :: rest)
      e.offending) :
    OnlyReport (p ++ "enum".toList ++ q1 ++ ['{'] ++ q2 ++ [','] ++ w ++ '}' :: rest) (e :: es)
      (utf8Len (p ++ "enum".toList ++ q1 ++ ['{'] ++ q2)) 1
      (positionText e.line e.column ++
        " trailing comma is not allowed in enum declaration".toList) := by
  obtain ⟨x, xs, hx⟩ := atToken rfl rfl he hes
  have htrim : trimEnd (p ++ "enum".toList ++ q1 ++ ['{'] ++ q2 ++ [','] ++ w) =
      p ++ "enum".toList ++ q1 ++ ['{'] ++ q2 ++ [','] := trimEnd_blank (by decide) hw
  obtain ⟨n, ns, hn, hle⟩ := matchIndices_first (pat := "enum".toList) (by decide) (a := p)
    (b := q1 ++ ['{'] ++ q2 ++ [','] ++ w)
  have henum : enumBefore (p ++ "enum".toList ++ q1 ++ ['{'] ++ q2 ++ [','] ++ w ++ '}' :: rest)
      x.offset (matchIndices "enum".toList
        (p ++ "enum".toList ++ q1 ++ ['{'] ++ q2 ++ [','] ++ w)) = some true := by
    have hassoc : p ++ "enum".toList ++ q1 ++ ['{'] ++ q2 ++ [','] ++ w =
        p ++ "enum".toList ++ (q1 ++ ['{'] ++ q2 ++ [','] ++ w) := by simp only [List.append_assoc]
    have hmem : n ∈ matchIndices "enum".toList
        (p ++ "enum".toList ++ q1 ++ ['{'] ++ q2 ++ [','] ++ w) := by
      rw [hassoc, hn]; exact List.mem_cons_self ..
    obtain ⟨a, b, hab, rfl⟩ := matchIndices_mem hmem
    rw [show matchIndices "enum".toList (p ++ "enum".toList ++ q1 ++ ['{'] ++ q2 ++ [','] ++ w) =
      utf8Len a :: ns from by rw [hassoc, hn]]
    unfold enumBefore
    have h4 : utf8Len "enum".toList = 4 := rfl
    rw [hx.offset, slice_ok (p := a ++ "enum".toList) (w := b) (q := '}' :: rest) (by rw [hab])
      (by rw [utf8Len_append]; rfl) (by rw [hab, utf8Len_append, utf8Len_append]; rfl)]
    have hb : containsStr "{" b = true := by
      refine containsStr_iff.2 ?_
      rw [hassoc] at hab
      rcases List.append_eq_append_iff.1 hab with ⟨c, hc, hc'⟩ | ⟨c, hc, hc'⟩
      · have : c = [] := by
          cases c with
          | nil => rfl
          | cons y ys =>
            exfalso
            have := congrArg utf8Len hc
            simp only [utf8Len_append, utf8Len] at this
            have := y.utf8Size_pos
            omega
        subst this
        rw [List.nil_append] at hc'
        exact ⟨q1, q2 ++ [','] ++ w, by rw [← hc']; simp⟩
      · exact ⟨c ++ q1, q2 ++ [','] ++ w, by rw [hc']; simp⟩
    simp only [Option.bind_eq_bind, Option.bind_some, hb, if_true]
  have hdet : ∃ r, detectTrailingComma x
      (p ++ "enum".toList ++ q1 ++ ['{'] ++ q2 ++ [','] ++ w ++ '}' :: rest) =
      some (some r) ∧ r.offset = utf8Len (p ++ "enum".toList ++ q1 ++ ['{'] ++ q2) ∧ r.length = 1 ∧
      r.message = linePart e.line e.column ++
        "trailing comma is not allowed in enum declaration".toList := by
    unfold detectTrailingComma
    have : trim ['}'] = ['}'] := by decide
    rw [hx.shown]
    simp only [this]
    rw [if_neg (by simp), hx.cut]
    simp only [Option.bind_eq_bind, Option.bind_some, htrim]
    rw [show endsWith "," (p ++ "enum".toList ++ q1 ++ ['{'] ++ q2 ++ [',']) = true from
      endsWith_self "," _]
    obtain ⟨hc1, hc2⟩ := cut_ok (s := p ++ "enum".toList ++ q1 ++ ['{'] ++ q2 ++ [','])
      (p := p ++ "enum".toList ++ q1 ++ ['{'] ++ q2) (pat := ",") rfl (n := 1) rfl
    rw [hc1]
    simp only [Option.bind_some]
    rw [hc2, henum]
    simp only [Option.bind_some, Bool.not_true, Bool.false_eq_true, if_false]
    obtain ⟨s, hs, -⟩ := lastWord_ok false
      (trimEnd (p ++ "enum".toList ++ q1 ++ ['{'] ++ q2))
    rw [hs, linePrefix_ok hx.refined]
    simp only [Option.bind_some]
    exact ⟨_, rfl, rfl, rfl, rfl⟩
  obtain ⟨r, hr, h1, h2, h3⟩ := hdet
  refine ⟨r, hx.outcome r (refine_hit ?_), h1, h2, ?_⟩
  · simp only [List.cons_append]
    rw [firstFound_skip (detectEmptyUnion_none hx.cut (by
      rw [htrim]; exact endsWith_other (x := []) rfl (by decide))),
      firstFound_skip (detectEmptyTypeParameter_none hx.shown (by decide) (by decide)),
      firstFound_skip (detectFixedNonInteger_none hx.message hm),
      firstFound_skip (detectMissingName_none hx.shown (by decide) (by decide))]
    exact firstFound_hit hr
  · rw [h3, positionText_eq]
    simp

/-- **C50, size of a fixed type.**  What stands between the parentheses of a fixed type, when the
parser stops at the closing one, is reported as not being an integer. -/
theorem C50_fixed_size {p w name w' bad rest m : List Char} {e : RawError} {es : List RawError}
    (hw : OnlyBlank w) (hne : w ≠ []) (hn : PlainWord name) (hw' : OnlyBlank w') (hbad : bad ≠ [])
    (hparen : '(' ∉ bad) (hbrace : '{' ∉ bad) (hm : HasWords "`)`" m)
    (he : Worded e (utf8Len (p ++ "fixed".toList ++ w ++ name ++ w' ++ '(' :: bad)) 1 m)
    (hes : ∀ e ∈ es, TokenIn (p ++ "fixed".toList ++ w ++ name ++ w' ++ '(' :: bad ++ ')' :: rest)
      e.offending) :
    OnlyReport (p ++ "fixed".toList ++ w ++ name ++ w' ++ '(' :: bad ++ ')' :: rest) (e :: es)
      (utf8Len (p ++ "fixed".toList ++ w ++ name ++ w' ++ ['('])) (utf8Len bad)
      (positionText e.line e.column ++ " fixed type requires an integer size -- use `fixed ".toList ++
        name ++ "(<integer>)`, e.g., `fixed ".toList ++ name ++ "(16)`".toList) := by
  obtain ⟨x, xs, hx⟩ := atToken rfl rfl he hes
  have hnot : ¬ endsWith "{" (trimEnd
      (p ++ "fixed".toList ++ w ++ name ++ w' ++ '(' :: bad)) = true := by
    intro h
    obtain ⟨y, hy⟩ := endsWith_append.1 h
    obtain ⟨z, hz, hzall⟩ := trimEnd_append (p ++ "fixed".toList ++ w ++ name ++ w' ++ '(' :: bad)
    rw [hy] at hz
    have hz' : p ++ "fixed".toList ++ w ++ name ++ w' ++ ['('] ++ bad = y ++ '{' :: z := by
      rw [show y ++ '{' :: z = y ++ "{".toList ++ z from by simp, ← hz]; simp
    rcases List.append_eq_append_iff.1 hz' with ⟨c, hc, hc'⟩ | ⟨c, hc, hc'⟩
    · exact hbrace (by rw [hc']; simp)
    · cases c with
      | nil => simp only [List.nil_append] at hc'; exact hbrace (by rw [← hc']; simp)
      | cons c0 cs =>
        simp only [List.cons_append, List.cons.injEq] at hc'
        obtain ⟨rfl, hc'⟩ := hc'
        by_cases hcs : cs = []
        · subst hcs
          have := (List.append_inj' hc rfl).2
          cases this
        · have hl : (cs.getLast hcs) = '(' := by
            have h1 := congrArg List.getLast? hc
            rw [List.getLast?_append, List.getLast?_append (l := y), List.getLast?_cons (a := '{'),
              List.getLast?_eq_some_getLast hcs] at h1
            simp only [List.getLast?_singleton, Option.some_or, Option.getD_some,
              Option.some.injEq] at h1
            exact h1.symm
          have := hzall '(' (by rw [hc']; exact List.mem_append_left _ (hl ▸ List.getLast_mem hcs))
          exact absurd this (by decide)
  have hpos : 0 < utf8Len bad := utf8Len_pos_of_ne hbad
  have hsize : '('.utf8Size = 1 := rfl
  have hdet : ∃ r, detectFixedNonInteger x
      (p ++ "fixed".toList ++ w ++ name ++ w' ++ '(' :: bad ++ ')' :: rest) = some (some r) ∧
      r.offset = utf8Len (p ++ "fixed".toList ++ w ++ name ++ w' ++ ['(']) ∧
      r.length = utf8Len bad ∧
      r.message = linePart e.line e.column ++
        "fixed type requires an integer size -- use `fixed ".toList ++
        name ++ "(<integer>)`, e.g., `fixed ".toList ++ name ++ "(16)`".toList := by
    unfold detectFixedNonInteger
    rw [hx.cut, hx.message, containsStr_message hm]
    simp only [Bool.not_true, Bool.false_eq_true, if_false, Option.bind_eq_bind, Option.bind_some]
    rw [rfindChar_last hparen]
    simp only
    rw [sliceTo_append]
    simp only [Option.bind_some]
    rw [trimEnd_word hn.1 (hn.chars false) hw', lastWord_eq hn.1 (hn.chars false) (by
      intro y c hc
      have hmem : c ∈ w := by
        have h1 := congrArg List.getLast? hc
        rw [List.getLast?_append, List.getLast?_append (l := y),
          List.getLast?_eq_some_getLast hne] at h1
        simp only [List.getLast?_singleton, Option.some_or, Option.some.injEq] at h1
        rw [← h1]
        exact List.getLast_mem hne
      cases hwc : wordChar false c with
      | false => rfl
      | true =>
        have := wordChar_blank hwc
        rw [hw c hmem] at this
        cases this)]
    simp only [Option.bind_some]
    rw [trimEnd_word (bq := false) (by decide) (by decide) hw, endsWith_self]
    simp only [Bool.not_true, Bool.false_eq_true, if_false]
    rw [slice_ok (p := p ++ "fixed".toList ++ w ++ name ++ w' ++ ['(']) (w := bad)
      (q := ')' :: rest) (by simp) (by rw [utf8Len_append]; rfl)
      (by rw [hx.offset]; simp only [utf8Len_append, utf8Len]; omega), ← hx.message,
      linePrefix_ok hx.refined, hx.offset, checkedSub_le (by simp only [utf8Len_append]; omega)]
    simp only [Option.bind_some]
    rw [checkedSub_le (by simp only [utf8Len_append, utf8Len]; omega)]
    simp only [Option.bind_some, Option.some.injEq]
    refine ⟨_, rfl, ?_, ?_, rfl⟩
    · simp only [utf8Len_append, utf8Len]; omega
    · have : utf8Len (p ++ "fixed".toList ++ w ++ name ++ w' ++ '(' :: bad) -
          utf8Len (p ++ "fixed".toList ++ w ++ name ++ w') - 1 = utf8Len bad := by
        simp only [utf8Len_append, utf8Len]; omega
      simp only
      rw [this, if_pos hpos]
  obtain ⟨r, hr, h1, h2, h3⟩ := hdet
  refine ⟨r, hx.outcome r (refine_hit ?_), h1, h2, ?_⟩
  · simp only [List.cons_append]
    rw [firstFound_skip (detectEmptyUnion_none hx.cut (by simpa using hnot)),
      firstFound_skip (detectEmptyTypeParameter_none hx.shown (by decide) (by decide))]
    exact firstFound_hit hr
  · rw [h3, positionText_eq]
    simp

/-- **C50, missing brace.**  If the parser stops at the opening brace of a declaration, where it
expected a comma or a semicolon, and a brace before the declaration is still open, then the report is
at the innermost open brace, and says which kind of declaration it belongs to. -/
theorem C50_missing_brace {p w name w' rest m : List Char} {kw : String} {e : RawError} {i : Nat}
    (hk : kw ∈ ["record", "enum", "error", "fixed"]) (hp : WordEnded p) (hw : OnlyBlank w)
    (hne : w ≠ []) (hn : PlainWord name)
    (hnot : name ∉ ["protocol".toList, "record".toList, "enum".toList, "fixed".toList, "error".toList])
    (hw' : OnlyBlank w') (hm : HasWords "';'" m ∨ HasWords "','" m) (hm' : ¬ HasWords "`)`" m)
    (hi : Unclosed (p ++ kw.toList ++ w ++ name ++ w') i)
    (he : Worded e (utf8Len (p ++ kw.toList ++ w ++ name ++ w')) 1 m) :
    ∃ construct, OnlyReport (p ++ kw.toList ++ w ++ name ++ w' ++ '{' :: rest) [e] i 1
        (positionText e.line e.column ++ " missing closing `}`".toList ++ construct) ∧
      ∀ before after what, p ++ kw.toList ++ w ++ name ++ w' = before ++ '{' :: after →
        utf8Len before = i → Declaring before what → construct = " for ".toList ++ what.toList := by
  obtain ⟨x, xs, hx⟩ := atToken (d := '{') (es := []) (after := rest) rfl rfl he (fun _ h => by cases h)
  have hxs : xs = [] := List.length_eq_zero_iff.1 hx.count
  subst hxs
  simp only [List.mem_cons, List.not_mem_nil, or_false, not_or] at hnot
  obtain ⟨n1, n2, n3, n4, n5⟩ := hnot
  have hkw : kw.toList ≠ [] ∧ (∀ c ∈ kw.toList, wordChar false c = true) ∧
      isDeclWord kw.toList = true := by
    clear he hi hx; revert hk; revert kw; decide
  have htrim := trimEnd_word (s := p ++ kw.toList ++ w) hn.1 (hn.chars true) hw'
  have hb : ∀ bq, lastWord bq (p ++ kw.toList ++ w ++ name) =
      some (some (utf8Len (p ++ kw.toList ++ w), p ++ kw.toList ++ w, name)) := fun bq =>
    lastWord_eq hn.1 (hn.chars bq) (ended_blank hw hne)
  obtain ⟨a, b, hab, hai⟩ := hi.brace
  have hopen := openBraces_head.2 hi
  have hdet : ∃ r, detectMissingCloseBrace x (p ++ kw.toList ++ w ++ name ++ w' ++ '{' :: rest) =
      some (some r) ∧ openBraceError x (p ++ kw.toList ++ w ++ name ++ w' ++ '{' :: rest) i
        "missing closing `}`" "add a closing `}` before the next type declaration" = some r := by
    obtain ⟨r, hr, -⟩ := openBraceError_ok hx.refined
      (p := a) (q := b ++ '{' :: rest) (by rw [hab]; simp) "missing closing `}`"
      "add a closing `}` before the next type declaration"
    rw [hai] at hr
    refine ⟨r, ?_, hr⟩
    unfold detectMissingCloseBrace
    have : trim ['{'] = ['{'] := by decide
    rw [hx.shown]
    simp only [this]
    rw [if_neg (by simp), hx.cut]
    have hc : (containsStr "';'" x.message || containsStr "','" x.message) = true := by
      rw [hx.message]
      rcases hm with hm | hm <;> rw [containsStr_message hm] <;> simp
    rw [hc]
    simp only [Bool.not_true, Bool.false_eq_true, if_false, Option.bind_eq_bind, Option.bind_some,
      htrim, hb]
    rw [show isDeclWord name = false from by
        unfold isDeclWord; simp only [decide_eq_false_iff_not, not_or]; exact ⟨n2, n3, n5, n4⟩,
      trimEnd_word hkw.1 hkw.2.1 hw, lastWord_eq hkw.1 hkw.2.1 hp.not]
    simp only [Option.map_some, hkw.2.2, Option.bind_some, Bool.not_true, Bool.false_eq_true, if_false]
    cases ho : openBraces (p ++ kw.toList ++ w ++ name ++ w') with
    | nil => rw [ho] at hopen; cases hopen
    | cons j js =>
      rw [ho] at hopen
      cases hopen
      simp only [hr, Option.map_some]
  obtain ⟨r, hr, hr'⟩ := hdet
  obtain ⟨h1, h2, con, h3, h4⟩ := openBraceError_place hx.refined hr'
  refine ⟨con, ⟨r, hx.outcome r (refine_hit ?_), h1, h2, ?_⟩, fun before after what ht hi' hd =>
    h4 before what ?_ hd⟩
  · have hnone : detectMissingName x (p ++ kw.toList ++ w ++ name ++ w' ++ '{' :: rest) =
        some none := by
      unfold detectMissingName
      have : trim ['{'] = ['{'] := by decide
      rw [hx.shown]
      simp only [this]
      rw [if_neg (by simp), hx.cut]
      simp only [Option.bind_eq_bind, Option.bind_some, htrim, hb]
      rw [if_neg n1, if_neg n2, if_neg n3, if_neg n4, if_neg n5]
    simp only [List.cons_append, List.isEmpty_nil, if_true, List.nil_append]
    rw [firstFound_skip (detectEmptyUnion_none hx.cut (by
      rw [htrim]; exact endsWith_word (x := []) (bq := true) rfl (by decide) hn.1 (hn.chars true))),
      firstFound_skip (detectEmptyTypeParameter_none hx.shown (by decide) (by decide)),
      firstFound_skip (detectFixedNonInteger_none hx.message hm'), firstFound_skip hnone,
      firstFound_skip (detectTrailingComma_none hx.shown (by decide) (by decide))]
    exact firstFound_hit hr
  · rw [h3, positionText_eq]
    simp
  · rw [ht, List.append_assoc, ← hi']
    exact sliceTo_append _ _

end Avdl.Props

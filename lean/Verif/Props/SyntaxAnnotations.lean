import Verif.Spec.SyntaxAnnotations
import Verif.Props.SyntaxFindings
import Verif.Props.Suggest
/-!
# Reports on annotations, imports and misspelt keywords (C50)

The parser quotes what it has read without the blanks, so the name of an annotation runs into the
word after it.
-/

namespace Avdl.Props
open Spec Lemmas

theorem avroKeywords_following : avroKeywords = followingWords := rfl

theorem declarationKeywords_words : declarationKeywords = declarationWords := rfl

theorem nameChar_iff {c : Char} :
    (asciiAlnum c || c == '_' || c == '-') = true ↔ NameChar c := by
  simp [asciiAlnum, NameChar, or_assoc]

theorem splitKeywordLoop_name {name word : List Char} (hn : name ≠ []) :
    ∀ kws : List String,
      (∀ a, ∀ k ∈ kws, a ≠ [] → small (name ++ word) = a ++ k.toList → k.toList = small word) →
      (small word ∈ [] :: kws.map String.toList) →
      splitKeywordLoop (name ++ word) kws = some name
  | [], _, hw => by
      have : word = [] := by simpa [small] using hw
      simp [splitKeywordLoop, this]
  | kw :: kws, h, hw => by
      have hlen : utf8Len (asciiLower (name ++ word)) = utf8Len name + utf8Len word := by
        rw [asciiLower_len, utf8Len_append]
      rw [splitKeywordLoop]
      split
      · rename_i hc
        rw [Bool.and_eq_true] at hc
        obtain ⟨a, ha⟩ := endsWith_append.1 hc.1
        have hlt := of_decide_eq_true hc.2
        have hane : a ≠ [] := by
          rintro rfl
          rw [ha] at hlt
          simp at hlt
        have hk := h a kw (List.mem_cons_self ..) hane ha
        have hkl : utf8Len kw.toList = utf8Len word := by
          rw [hk]; exact asciiLower_len word
        rw [hkl, utf8Len_append]
        simp only [checkedSub, if_pos (Nat.le_add_left _ _), Nat.add_sub_cancel]
        exact sliceTo_append name word
      · rename_i hc
        refine splitKeywordLoop_name hn kws
          (fun a k hk => h a k (List.mem_cons_of_mem _ hk)) ?_
        simp only [List.map_cons, List.mem_cons] at hw ⊢
        rcases hw with hw | hw | hw
        · exact .inl hw
        · refine absurd ?_ hc
          rw [Bool.and_eq_true]
          refine ⟨endsWith_append.2 ⟨small name, ?_⟩, decide_eq_true ?_⟩
          · rw [← hw]; simp [small, asciiLower]
          · have e : utf8Len kw.toList = utf8Len word := by
              rw [← hw]; exact asciiLower_len word
            have : 0 < utf8Len name := by
              obtain ⟨c, cs, rfl⟩ := List.exists_cons_of_ne_nil hn
              have := Char.utf8Size_pos c
              simp only [utf8Len]
              omega
            omega
        · exact .inr hw

theorem nameChar_size {c : Char} (h : NameChar c) : c.utf8Size = 1 := by
  rcases h with h | rfl | rfl
  · exact alnum_size h
  · rfl
  · rfl

theorem nameChars_len {s : List Char} (h : ∀ c ∈ s, NameChar c) : utf8Len s = s.length := by
  induction s with
  | nil => rfl
  | cons c s ih =>
    simp only [utf8Len, List.length_cons, nameChar_size (h c (List.mem_cons_self ..)),
      ih fun d hd => h d (List.mem_cons_of_mem _ hd)]
    omega

theorem annotationName_eq {before merged after : List Char} (hne : merged ≠ [])
    (hm : ∀ c ∈ merged, NameChar c) (ha : '@' ∉ after)
    (hf : ∀ c rest, after = c :: rest → ¬ NameChar c ∧ c ≠ '(') :
    annotationName (before ++ '@' :: merged ++ after) =
      (splitTrailingKeyword merged).map some := by
  have hat : '@' ∉ merged ++ after := by
    rw [List.mem_append, not_or]
    refine ⟨fun h => ?_, ha⟩
    have := nameChar_iff.2 (hm _ h)
    revert this
    decide
  have e : before ++ '@' :: merged ++ after = before ++ '@' :: (merged ++ after) := by simp
  rw [e]
  have htake : (merged ++ after).takeWhile (fun c => asciiAlnum c || c == '_' || c == '-') =
      merged := by
    rw [List.takeWhile_append_of_pos fun c hc => nameChar_iff.2 (hm c hc)]
    have : after.takeWhile (fun c => asciiAlnum c || c == '_' || c == '-') = [] := by
      cases after with
      | nil => rfl
      | cons c r =>
        rw [List.takeWhile_cons, if_neg]
        exact fun h => (hf c r rfl).1 (nameChar_iff.1 h)
    rw [this, List.append_nil]
  have hpar : startsWith "(" after = false := by
    rw [Bool.eq_false_iff]
    intro h
    obtain ⟨q, hq⟩ := startsWith_append.1 h
    exact (hf '(' q hq).2 rfl
  have hto : ∀ s : List Char, sliceTo s (utf8Len s) = some s := by
    intro s
    have := sliceTo_append s []
    rwa [List.append_nil] at this
  unfold annotationName
  rw [annotationLoop, hto]
  simp only [Option.bind_eq_bind, Option.bind_some]
  rw [rfindChar_last hat]
  have hfrom : sliceFrom (before ++ '@' :: (merged ++ after)) (utf8Len before + 1) =
      some (merged ++ after) := by
    have := sliceFrom_append (before ++ ['@']) (merged ++ after)
    rw [utf8Len_append, show utf8Len ['@'] = 1 from rfl] at this
    simpa using this
  simp only [hfrom, Option.bind_some, htake]
  have hlen := nameChars_len hm
  rw [if_pos (List.length_pos_of_ne_nil hne), ← hlen, sliceTo_append, sliceFrom_append]
  simp only [Option.bind_some, hpar]
  rfl

theorem noViableInput_eq {input : List Char} (h : '\'' ∉ input) :
    noViableInput ("no viable alternative at input '".toList ++ input ++ ['\'']) =
      some (some input) := by
  unfold noViableInput
  rw [List.append_assoc, findStr_head]
  have hl : utf8Len "no viable alternative at input '".toList = 32 := by decide +kernel
  have := sliceFrom_append "no viable alternative at input '".toList (input ++ ['\''])
  rw [hl] at this
  simp only [Nat.zero_add, this, Option.bind_eq_bind, Option.bind_some]
  have hf : findStr ['\''] (input ++ ['\'']) = some (utf8Len input) := by
    have := findStr_first (pat := ['\'']) (x := []) (z := '\'') rfl (by simp) (a := input) (b := [])
      (by
        rintro ⟨p, q, rfl⟩
        exact h (by simp))
    simpa using this
  rw [hf]
  simp only [sliceTo_append, Option.map_some]

theorem atName_enrich {message name word : List Char} (h : AtName message name word) :
    noViableInput message ≠ some none ∧ ∃ input, noViableInput message = some (some input) ∧
      annotationName input = some (some name) := by
  obtain ⟨⟨before, after, hm, hb, ha, hat, hf⟩, hn, hc, hw, hap⟩ := h
  have hq : '\'' ∉ before ++ '@' :: (name ++ word) ++ after := by
    simp only [List.mem_append, List.mem_cons, not_or]
    have hq : ¬ NameChar '\'' := fun h => by
      have := nameChar_iff.2 h
      revert this
      decide
    exact ⟨⟨hb, by decide, fun h => hq (hc _ (List.mem_append_left _ h)),
      fun h => hq (hc _ (List.mem_append_right _ h))⟩, ha⟩
  have e : message = "no viable alternative at input '".toList ++
      (before ++ '@' :: (name ++ word) ++ after) ++ ['\''] := by
    rw [hm]; simp only [List.append_assoc, List.cons_append]
  have h1 := noViableInput_eq hq
  rw [← e] at h1
  refine ⟨by rw [h1]; simp, _, h1, ?_⟩
  rw [annotationName_eq (by simp [hn]) hc hat hf, splitTrailingKeyword,
    splitKeywordLoop_name hn avroKeywords (by rw [avroKeywords_following]; exact hap)
      (by rw [avroKeywords_following]; exact hw)]
  rfl

/-- **C50, annotations.**  If the parser gives up after `@` and a name that no parenthesis follows, then
the report is about this annotation: if its name begins like a declaration, it says that the `@` is
out of place, and names the word; otherwise it says that the value is missing, and gives the name as it
is written, without the word that follows. -/
theorem C50_annotation {source : Option (List Char)} {e : RawError} {name word : List Char}
    (h : AtName e.message name word) :
    ∃ x, listen source e = some x ∧
      ((∃ kw ∈ declarationWords, (∃ rest, small name = kw.toList ++ rest) ∧
          x.message = positionText e.line e.column ++ " unexpected `@` before `".toList ++ kw.toList ++
            ("` -- did you mean to add an annotation? annotations use `@name(\"value\")` " ++
              "syntax").toList) ∨
        ((∀ kw ∈ declarationWords, ∀ rest, small name ≠ kw.toList ++ rest) ∧
          x.message = positionText e.line e.column ++ " annotation `@".toList ++ name ++
            "` is missing its value -- use `@".toList ++ name ++ "(\"value\")` syntax".toList)) := by
  obtain ⟨-, input, h1, h2⟩ := atName_enrich h
  have hs : startsWithKeyword name = declarationWords.find? fun kw => startsWith kw (small name) := rfl
  cases hk : startsWithKeyword name with
  | some kw =>
    have hl : listen source e = some ⟨(syntaxErrorSpan e.offending source e.line e.column).1,
        (syntaxErrorSpan e.offending source e.line e.column).2, linePart e.line e.column ++
          ("unexpected `@` before ".toList ++ quoted kw.toList ++
            (" -- did you mean to add an annotation? " ++
              "annotations use `@name(\"value\")` syntax").toList),
        some ("unexpected `@` before ".toList ++ quoted kw.toList), none⟩ := by
      unfold listen enrich
      simp only [h1, h2, hk, Option.bind_eq_bind, Option.bind_some]
    rw [hs] at hk
    refine ⟨_, hl, .inl ⟨kw, List.mem_of_find?_eq_some hk,
      startsWith_append.1 (by simpa using List.find?_some hk), ?_⟩⟩
    have e1 : " unexpected `@` before `".toList = [' '] ++ "unexpected `@` before ".toList ++ "`".toList := by
      decide +kernel
    have e2 : ("` -- did you mean to add an annotation? annotations use `@name(\"value\")` " ++
        "syntax").toList = "`".toList ++ (" -- did you mean to add an annotation? " ++
          "annotations use `@name(\"value\")` syntax").toList := by decide +kernel
    rw [positionText_eq, e1, e2]
    simp only [quoted, List.append_assoc]
  | none =>
    have hl : listen source e = some ⟨(syntaxErrorSpan e.offending source e.line e.column).1,
        (syntaxErrorSpan e.offending source e.line e.column).2, linePart e.line e.column ++
          ("annotation `@".toList ++ name ++ "` is missing its value -- use `@".toList ++
            name ++ "(\"value\")` syntax".toList), none, none⟩ := by
      unfold listen enrich
      simp only [h1, h2, hk, Option.bind_eq_bind, Option.bind_some]
    rw [hs] at hk
    refine ⟨_, hl, .inr ⟨fun kw hkw rest hr => ?_, ?_⟩⟩
    · exact List.find?_eq_none.1 hk kw hkw (startsWith_append.2 ⟨rest, hr⟩)
    · have e1 : " annotation `@".toList = [' '] ++ "annotation `@".toList := by decide +kernel
      rw [positionText_eq, e1]
      simp only [List.append_assoc]

/-- Without `@` there is no annotation. -/
theorem annotationName_none {input : List Char} (h : '@' ∉ input) :
    annotationName input = some none := by
  have hto : sliceTo input (utf8Len input) = some input := by
    have := sliceTo_append input []
    rwa [List.append_nil] at this
  unfold annotationName
  rw [annotationLoop, hto]
  simp only [Option.bind_eq_bind, Option.bind_some]
  rw [rfindChar_none.2 h]

/-- **C50, imports.**  If the parser gives up at the path of an import without kind, the report says that
the kind is missing, and names the kinds. -/
theorem C50_import_kind {source : Option (List Char)} {e : RawError} {rest : List Char}
    (hm : e.message = "no viable alternative at input '".toList ++ ("import\"".toList ++ rest) ++
      ['\'']) (hq : '\'' ∉ rest) (hat : '@' ∉ rest) :
    ∃ x, listen source e = some x ∧ x.message = positionText e.line e.column ++
      (" import statement missing kind specifier -- use `import idl`, `import protocol`, or " ++
        "`import schema`").toList := by
  have h1 : noViableInput e.message = some (some ("import\"".toList ++ rest)) := by
    rw [hm]
    refine noViableInput_eq ?_
    rw [List.mem_append, not_or]
    exact ⟨by decide, hq⟩
  have h2 : annotationName ("import\"".toList ++ rest) = some none := by
    refine annotationName_none ?_
    rw [List.mem_append, not_or]
    exact ⟨by decide, hat⟩
  have h3 : startsWith "import\"" ("import\"".toList ++ rest) = true :=
    startsWith_append.2 ⟨rest, rfl⟩
  have hl : listen source e = some ⟨(syntaxErrorSpan e.offending source e.line e.column).1,
      (syntaxErrorSpan e.offending source e.line e.column).2, linePart e.line e.column ++
        ("import statement missing kind specifier -- " ++
          "use `import idl`, `import protocol`, or `import schema`").toList,
      some "missing import kind".toList, none⟩ := by
    unfold listen enrich
    simp only [h1, h2, Option.any_some, h3, Option.bind_eq_bind, Option.bind_some, if_true]
  refine ⟨_, hl, ?_⟩
  have e1 : (" import statement missing kind specifier -- use `import idl`, `import protocol`, or " ++
      "`import schema`").toList = [' '] ++ ("import statement missing kind specifier -- " ++
        "use `import idl`, `import protocol`, or `import schema`").toList := by decide +kernel
  rw [positionText_eq, e1]
  simp only [List.append_assoc]

/-- **C50, misspelt keywords.**  If the parser gives up at a word that is no keyword but near to one, the
report names the word and a nearest keyword. -/
theorem C50_misspelt {source : Option (List Char)} {e : RawError} {before word : List Char}
    (hm : e.message = "no viable alternative at input '".toList ++ (before ++ word) ++ ['\''])
    (hq : '\'' ∉ before) (hat : '@' ∉ before) (hb : WordEnded before) (hw : PlainWord word)
    (hi : ∀ rest, before ≠ "import\"".toList ++ rest)
    (hno : ∀ kw ∈ followingWords, kw.toList ≠ small word)
    (hnear : ∃ kw d, NearKeyword followingWords (small word) kw d) :
    ∃ x kw d, listen source e = some x ∧ NearKeyword followingWords (small word) kw d ∧
      (∀ kw' d', NearKeyword followingWords (small word) kw' d' → d ≤ d') ∧
      x.message = positionText e.line e.column ++ " unrecognized token `".toList ++ word ++
        "` -- did you mean `".toList ++ kw.toList ++ "`?".toList := by
  have hout : ∀ c, c.isAlphanum = false → c ≠ '_' → c ∉ word := by
    intro c h1 h2 hc
    rcases hw.2 c hc with h | h
    · rw [h1] at h; cases h
    · exact h2 h
  have h1 : noViableInput e.message = some (some (before ++ word)) := by
    rw [hm]
    refine noViableInput_eq ?_
    rw [List.mem_append, not_or]
    exact ⟨hq, hout _ (by decide) (by decide)⟩
  have h2 : annotationName (before ++ word) = some none := by
    refine annotationName_none ?_
    rw [List.mem_append, not_or]
    exact ⟨hat, hout _ (by decide) (by decide)⟩
  have h3 : startsWith "import\"" (before ++ word) = false := by
    rw [Bool.eq_false_iff]
    intro h
    obtain ⟨q, hs⟩ := startsWith_append.1 h
    have hpre : "import\"".toList <+: before ∨ '"' ∈ word := by
      rcases List.append_eq_append_iff.1 hs with ⟨r, hr, hr'⟩ | ⟨r, hr, hr'⟩
      · cases hrr : r with
        | nil => exact .inl ⟨[], by rw [hr, hrr]; simp⟩
        | cons c cs =>
          right
          have hl : (before ++ r).getLast? = some '"' := by
            rw [← hr]; decide
          rw [List.getLast?_append, hrr, List.getLast?_cons] at hl
          have : '"' ∈ r := by
            rw [hrr]
            refine List.mem_of_getLast? ?_
            rw [List.getLast?_cons]
            simpa using hl
          rw [hr']
          exact List.mem_append_left _ this
      · exact .inl ⟨r, hr.symm⟩
    rcases hpre with ⟨r, hr⟩ | hmem
    · exact hi r hr.symm
    · exact hout '"' (by decide) (by decide) hmem
  have h4 : trailingIdentifier (before ++ word) = some (some word) := by
    unfold trailingIdentifier
    rw [lastWord_eq hw.1 (fun c hc => ?_) hb.not]
    · rfl
    · unfold wordChar asciiAlnum
      rcases hw.2 c hc with h | rfl
      · simp [h]
      · rfl
  obtain ⟨r, hr, hr1, hr2⟩ := C32_keyword (String.ofList word)
  have el : (String.ofList word).toList.map Char.toLower = small word := by simp [small]
  rw [el, avroKeywords_following] at hr1 hr2
  cases r with
  | none =>
    rcases hr2.1 rfl with ⟨kw, hk, he⟩ | h
    · exact absurd he (hno kw hk)
    · obtain ⟨kw, d, hkd⟩ := hnear
      exact absurd hkd (h kw d)
  | some kw =>
    obtain ⟨d, -, hd1, hd2⟩ := hr1 kw rfl
    have hl : listen source e = some ⟨(syntaxErrorSpan e.offending source e.line e.column).1,
        (syntaxErrorSpan e.offending source e.line e.column).2, linePart e.line e.column ++
          ("unrecognized token ".toList ++ quoted word ++ " -- did you mean ".toList ++
            quoted kw.toList ++ "?".toList),
        some ("did you mean ".toList ++ quoted kw.toList ++ "?".toList), none⟩ := by
      unfold listen enrich
      simp only [h1, h2, h3, h4, hr, Option.any_some, Option.bind_eq_bind, Option.bind_some,
        Option.map_some, Bool.false_eq_true, if_false]
    refine ⟨_, kw, d, hl, hd1, hd2, ?_⟩
    have e1 : " unrecognized token `".toList = [' '] ++ "unrecognized token ".toList ++ "`".toList := by
      decide +kernel
    have e2 : "` -- did you mean `".toList = "`".toList ++ " -- did you mean ".toList ++ "`".toList := by
      decide +kernel
    have e3 : "`?".toList = "`".toList ++ "?".toList := by decide +kernel
    rw [positionText_eq, e1, e2, e3]
    simp only [quoted, List.append_assoc]

/-- **C50, annotations.**  If the parser wants a parenthesis and finds something else, the report gives
its words and says how annotations are written. -/
theorem C50_parenthesis {source : Option (List Char)} {e : RawError} {token : List Char}
    (hm : e.message = "mismatched input '".toList ++ token ++ "' expecting '('".toList)
    (hno : ¬ HasWords "no viable alternative at input '" e.message) :
    ∃ x, listen source e = some x ∧ x.message = positionText e.line e.column ++
      " mismatched input '".toList ++ token ++
        "' expecting '(' (annotations require `@name(value)` syntax)".toList := by
  have h1 : noViableInput e.message = some none := by
    unfold noViableInput
    have : findStr "no viable alternative at input '".toList e.message = none := by
      cases h : findStr "no viable alternative at input '".toList e.message with
      | none => rfl
      | some n =>
        obtain ⟨p, q, hs, -⟩ := findStr_some h
        exact absurd ⟨p, q, hs⟩ hno
    rw [this]
  have hc : ∀ w : String, HasWords w e.message → containsStr w e.message = true := by
    rintro w ⟨p, q, h⟩
    obtain ⟨n, hn, -⟩ := findStr_append (pat := w.toList) p q
    unfold containsStr
    rw [h, hn]
    rfl
  have h2 := hc "expecting '('" ⟨"mismatched input '".toList ++ token ++ "' ".toList, [], by
    have : "' expecting '('".toList = "' ".toList ++ "expecting '('".toList := by decide +kernel
    rw [hm, this]; simp only [List.append_assoc, List.append_nil]⟩
  have h3 := hc "mismatched input" ⟨[], " '".toList ++ token ++ "' expecting '('".toList, by
    have : "mismatched input '".toList = "mismatched input".toList ++ " '".toList := by
      decide +kernel
    rw [hm, this]; simp only [List.append_assoc, List.nil_append]⟩
  have hl : listen source e = some ⟨(syntaxErrorSpan e.offending source e.line e.column).1,
      (syntaxErrorSpan e.offending source e.line e.column).2, linePart e.line e.column ++
        (e.message ++ " (annotations require `@name(value)` syntax)".toList), none, none⟩ := by
    unfold listen enrich
    simp only [h1, h2, h3, Option.any_none, Option.bind_eq_bind, Option.bind_some, Bool.and_self,
      Bool.false_eq_true, if_false, if_true]
  refine ⟨_, hl, ?_⟩
  have e1 : " mismatched input '".toList = [' '] ++ "mismatched input '".toList := by decide +kernel
  have e2 : "' expecting '(' (annotations require `@name(value)` syntax)".toList =
      "' expecting '('".toList ++ " (annotations require `@name(value)` syntax)".toList := by
    decide +kernel
  rw [positionText_eq, e1, e2, hm]
  simp only [List.append_assoc]

/-! ## Examples and a finding -/

/-- `@foo record`: the name runs into the keyword, and is told from it. -/
example : AtName "no viable alternative at input 'protocolP{@fooRecord'".toList "foo".toList
    "Record".toList where
  read := ⟨"protocolP{".toList, [], by decide +kernel, by decide, by decide, by decide,
    fun _ _ h => by cases h⟩
  name_ne := by decide
  chars := by
    have : ∀ c ∈ "fooRecord".toList, (asciiAlnum c || c == '_' || c == '-') = true := by decide
    exact fun c hc => nameChar_iff.1 (this c hc)
  word_ok := by decide +kernel
  apart := by
    have : ∀ k ∈ followingWords, endsWith k "foorecord".toList = true →
        k.toList = small "Record".toList := by decide +kernel
    intro a k hk _ he
    refine this k hk (endsWith_append.2 ⟨a, ?_⟩)
    rw [← he]
    decide +kernel

/-- The reports for an annotation without value, and for a stray `@`. -/
example : reports "protocol P { @foo record R {} }"
      [exError 18 "no viable alternative at input 'protocolP{@foorecord'"] =
        some [(18, 1, "line 1:18 annotation `@foo` is missing its value -- use " ++
          "`@foo(\"value\")` syntax")] ∧
    reports "protocol P { @enum R {} }"
      [exError 19 "no viable alternative at input 'protocolP{@enumR'"] =
        some [(19, 1, "line 1:19 unexpected `@` before `enum` -- did you mean to add an " ++
          "annotation? annotations use `@name(\"value\")` syntax")] := by
  constructor <;> decide +kernel

/-- An import without kind, and a misspelt keyword. -/
example : reports "protocol P { import \"x\"; }"
      [exError 20 "no viable alternative at input 'import\"x\"'"] =
        some [(20, 1, "line 1:20 import statement missing kind specifier -- use `import idl`, " ++
          "`import protocol`, or `import schema`")] ∧
    reports "protocol P { recrod R {} }"
      [exError 13 "no viable alternative at input 'protocolP{recrod'"] =
        some [(13, 1, "line 1:13 unrecognized token `recrod` -- did you mean `record`?")] := by
  constructor <;> decide +kernel

/-- The conditions for a misspelt keyword. -/
example : WordEnded "protocolP{".toList ∧ PlainWord "recrod".toList ∧
    (∀ rest, "protocolP{".toList ≠ "import\"".toList ++ rest) ∧
    (∀ kw ∈ followingWords, kw.toList ≠ small "recrod".toList) ∧
    ∃ kw d, NearKeyword followingWords (small "recrod".toList) kw d := by
  refine ⟨?_, ⟨by decide, by decide⟩, ?_, by decide +kernel, ?_⟩
  · intro y c h
    have : "protocolP{".toList.getLast? = (y ++ [c]).getLast? := congrArg _ h
    rw [List.getLast?_concat] at this
    have hc : "protocolP{".toList.getLast? = some '{' := by decide
    rw [hc] at this
    cases this
    decide
  · intro rest h
    have := startsWith_append.2 ⟨rest, h⟩
    revert this
    decide +kernel
  · have hs : suggestKeyword "recrod" = some (some "record") := by decide +kernel
    obtain ⟨r, hr, h, -⟩ := C32_keyword "recrod"
    rw [hs] at hr
    cases hr
    obtain ⟨d, -, hd, -⟩ := h _ rfl
    exact ⟨_, d, hd⟩

/-- A missing parenthesis. -/
example : reports "protocol P { @a record R {} }"
      [exError 16 "mismatched input 'record' expecting '('"] =
        some [(16, 1, "line 1:16 mismatched input 'record' expecting '(' (annotations require " ++
          "`@name(value)` syntax)")] ∧
    containsStr "no viable alternative at input '"
      "mismatched input 'record' expecting '('".toList = false := by
  constructor <;> decide +kernel

/-- **C50, finding.**  The end of a name is taken for the word after it if it reads like one, and of two
such words the shorter one is taken: the annotations are `@hint` and `@at`. -/
theorem C50_fails_annotation_name : reports "protocol P { @hint }"
      [exError 19 "no viable alternative at input 'protocolP{@hint}'"] =
        some [(19, 1, "line 1:19 annotation `@h` is missing its value -- use " ++
          "`@h(\"value\")` syntax")] ∧
    reports "protocol P { @at local_timestamp_ms f(); }"
      [exError 17 "no viable alternative at input 'protocolP{@atlocal_timestamp_ms'"] =
        some [(17, 1, "line 1:17 annotation `@atlocal_` is missing its value -- use " ++
          "`@atlocal_(\"value\")` syntax")] := by
  constructor <;> decide +kernel

end Avdl.Props

import Verif.Lemmas.SyntaxMessages
import Verif.Lemmas.SyntaxPatterns
import Verif.Props.SyntaxErrors
/-!
# What the messages for syntax errors say (C50)
-/

namespace Avdl.Props
open Spec

/-! ## Expected tokens -/

theorem names_filterMap (ts : List (List Char)) :
    ((ts.filter fun t => t ≠ "DocComment".toList ∧ t ≠ subToken).map fun t =>
      if t = "<EOF>".toList then "end of file".toList else humanizeToken t) =
    ts.filterMap readable := by
  induction ts with
  | nil => rfl
  | cons t ts ih =>
    by_cases h : t = "DocComment".toList ∨ t = "'\\u001A'".toList
    · rw [List.filter_cons_of_neg, ih, List.filterMap_cons_none]
      · unfold readable
        rw [if_pos h]
      · simp only [decide_eq_true_eq]
        rintro ⟨h1, h2⟩
        rcases h with h | h
        · exact h1 h
        · exact h2 h
    · rw [List.filter_cons_of_pos, List.map_cons, ih, List.filterMap_cons_some (b := if t =
        "<EOF>".toList then "end of file".toList else humanizeToken t)]
      · unfold readable
        rw [if_neg h]
        by_cases he : t = "<EOF>".toList
        · rw [if_pos he, if_pos he]
        · rw [if_neg he, if_neg he]
          unfold humanizeToken
          repeat' (split; · rfl)
          rfl
      · simp only [decide_eq_true_eq]
        exact ⟨fun h1 => h (.inl h1), fun h2 => h (.inr h2)⟩

theorem findStr_first {pat x : List Char} {z : Char} (hp : pat = x ++ [z]) (hz : z ∉ x)
    {a b : List Char} (ha : ¬ ∃ p q, a = p ++ pat ++ q) :
    findStr pat (a ++ pat ++ b) = some (utf8Len a) := by
  obtain ⟨n, hn, hle⟩ := findStr_append (pat := pat) a b
  obtain ⟨p, q, hs, rfl⟩ := findStr_some hn
  rw [hn]
  congr 1
  rw [List.append_assoc, List.append_assoc] at hs
  rcases List.append_eq_append_iff.1 hs with ⟨a', hpa, -⟩ | ⟨a', hap, hq⟩
  · subst hpa
    rw [utf8Len_append] at hle ⊢
    omega
  · by_cases hne : a' = []
    · subst hne
      rw [hap]; simp
    · exfalso
      rcases List.append_eq_append_iff.1 hq with ⟨y, hy, -⟩ | ⟨y, hy, hyq⟩
      · exact ha ⟨p, y, by rw [hap, hy]; simp⟩
      · have hyne : y ≠ [] ∨ y = [] := by
          by_cases h : y = []
          · exact .inr h
          · exact .inl h
        rcases hyne with hyne | rfl
        · have hlast : z ∈ y := by
            have hl : (a' ++ y).getLast? = (x ++ [z]).getLast? := by rw [← hy, ← hp]
            rw [List.getLast?_append, List.getLast?_append] at hl
            simp only [List.getLast?_singleton, Option.some_or] at hl
            cases hg : y.getLast? with
            | none => exact absurd (List.getLast?_eq_none_iff.1 hg) hyne
            | some w =>
              rw [hg] at hl
              simp only [Option.some_or, Option.some.injEq] at hl
              subst hl
              exact List.mem_of_getLast? hg
          have hlen : y.length < pat.length := by
            rw [hy, List.length_append]
            have := List.length_pos_iff.2 hne
            omega
          have hpre : ∃ r, pat = y ++ r ∧ r ≠ [] := by
            rcases List.append_eq_append_iff.1 hyq.symm with ⟨r, hr, -⟩ | ⟨r, hr, -⟩
            · refine ⟨r, hr, ?_⟩
              rintro rfl
              rw [hr] at hlen
              simp at hlen
            · rw [hr, List.length_append] at hlen
              omega
          obtain ⟨r, hr, hrne⟩ := hpre
          rw [hp] at hr
          rcases List.append_eq_append_iff.1 hr with ⟨w, hw, hw'⟩ | ⟨w, hw, hw'⟩
          · cases w with
            | nil =>
              apply hz
              rw [← List.append_nil x, ← hw]
              exact hlast
            | cons w0 ws =>
              simp only [List.cons_append, List.cons.injEq] at hw'
              have := hw'.2.symm
              exact hrne (List.append_eq_nil_iff.1 this).2
          · exact hz (by rw [hw]; exact List.mem_append_left _ hlast)
        · rw [List.append_nil] at hy
          exact ha ⟨p, [], by rw [hap, hy]; simp⟩

/-- A message of the parser about a token it did not expect. -/
def expecting (kind : String) (token : List Char) (tokens : List (List Char)) : List Char :=
  kind.toList ++ "'".toList ++ token ++ "'".toList ++ " expecting {".toList ++
    separated ", " tokens ++ "}".toList

theorem trimEnd_last {s w : List Char} {d : Char} (hd : isWhitespace d = false)
    (hw : ∀ c ∈ w, isWhitespace c = true) : trimEnd (s ++ [d] ++ w) = s ++ [d] := by
  unfold trimEnd
  rw [List.reverse_append, List.dropWhile_append_of_pos (fun c hc => hw c (List.mem_reverse.1 hc)),
    List.reverse_append, List.reverse_singleton, List.singleton_append, List.dropWhile_cons, hd]
  simp

/-- **C50, expected tokens.**  If the message lists the expected tokens, and none of the more specific
rewritings applies, then the report names each of them once, in order, and readably.  (Partial: for
more than five tokens the list is in the help instead, and not complete, see `C50_fails_help`.) -/
theorem C50_expected_tokens_partial {e : RawError} {kind : String} {token : List Char}
    {tokens : List (List Char)} (hk : kind = "mismatched input " ∨ kind = "extraneous input ")
    (hm : e.message = expecting kind token tokens) (ht : ∀ t ∈ tokens, TokenName t)
    (he : enrich e.message = some none)
    (hone : ¬ HasWords "expecting {" (kind.toList ++ "'".toList ++ token ++ "' ".toList)) :
    ∃ x names, listen none e = some x ∧ TokenNames tokens names ∧
      ∀ text, text = (if names = [] then "'".toList ++ token ++ "'".toList
          else "'".toList ++ token ++ "' expected ".toList ++ enumeration names) →
        (¬ HasWords "expecting" text ∧ ∀ w ∈ ["IdentifierToken", "StringLiteral", "IntegerLiteral",
          "FloatingPointLiteral"], ¬ HasWords w ("unexpected ".toList ++ text)) →
        x.message = positionText e.line e.column ++ " unexpected ".toList ++ text := by
  obtain ⟨h1, h2, -, h4⟩ := firstOccurrences_spec (tokens.filterMap readable) []
  obtain ⟨x, hx, -⟩ := listen_ok none e
  refine ⟨x, firstOccurrences [] (tokens.filterMap readable), hx, ⟨h1, h2, ?_⟩, ?_⟩
  · intro t ht' n hn
    rcases h4 n (List.mem_filterMap.2 ⟨t, ht', hn⟩) with h | h
    · cases h
    · exact h
  · intro text htext ⟨hclean, hnames⟩
    generalize hns : firstOccurrences [] (tokens.filterMap readable) = names at htext
    have key : sanitize e.message = some ("unexpected ".toList ++ text) := by
      have ha : kind.toList ++ "'".toList ++ token ++ "'".toList ++ " expecting {".toList ++
          separated ", " tokens ++ "}".toList =
          (kind.toList ++ "'".toList ++ token ++ "' ".toList) ++ "expecting {".toList ++
            (separated ", " tokens ++ ['}']) := by
        rw [show "' ".toList = "'".toList ++ " ".toList from rfl,
          show " expecting {".toList = " ".toList ++ "expecting {".toList from rfl]
        simp only [List.append_assoc]
        rfl
      rw [hm, expecting, ha]
      generalize hA : kind.toList ++ "'".toList ++ token ++ "' ".toList = A at *
      unfold sanitize
      rw [findStr_first (pat := "expecting {".toList) (x := "expecting ".toList) (z := '{') rfl
        (by decide) hone]
      simp only
      rw [show utf8Len A + 11 = utf8Len (A ++ "expecting {".toList) by rw [utf8Len_append]; rfl,
        sliceFrom_append]
      simp only [Option.bind_eq_bind, Option.bind_some]
      rw [findClosingBrace_names ht []]
      simp only
      rw [slice_ok (p := A ++ "expecting {".toList) (w := separated ", " tokens) (q := ['}'])
        (by simp only [List.append_assoc]) rfl rfl]
      simp only [Option.bind_some]
      rw [splitTokenSet_chars, (tokenSetChars_names tokens ht).1]
      simp only [Option.bind_some]
      rw [List.append_assoc A, sliceTo_append]
      simp only [Option.bind_some]
      rw [show A ++ ("expecting {".toList ++ (separated ", " tokens ++ ['}'])) =
          (A ++ "expecting {".toList ++ separated ", " tokens ++ ['}']) ++ [] by simp,
        show utf8Len (A ++ "expecting {".toList) + utf8Len (separated ", " tokens) + 1 =
          utf8Len (A ++ "expecting {".toList ++ separated ", " tokens ++ ['}']) by
            rw [utf8Len_append _ ['}'], utf8Len_append (A ++ "expecting {".toList)]; rfl,
        sliceFrom_append]
      simp only [Option.bind_some]
      rw [names_filterMap, hns]
      have hjargon : ∀ r, rewriteJargon (kind.toList ++ r) =
          "unexpected ".toList ++ replaceFirst "expecting".toList "expected".toList r := by
        intro r
        unfold rewriteJargon
        rcases hk with rfl | rfl
        · rw [stripPrefix_append]
          rw [show stripPrefix "extraneous input ".toList ("mismatched input ".toList ++ r) = none
            from rfl]
        · rw [stripPrefix_append]
      congr 1
      by_cases hemp : names = []
      · subst hemp
        rw [if_pos rfl] at htext
        rw [if_pos (show ([] : List (List Char)).isEmpty = true from rfl)]
        have hA' : A = (kind.toList ++ "'".toList ++ token) ++ ['\''] ++ [' '] := by
          rw [← hA]
          simp only [List.append_assoc]
          rfl
        rw [hA', trimEnd_last rfl (by decide), List.append_nil]
        rw [show kind.toList ++ "'".toList ++ token ++ ['\''] =
          kind.toList ++ ("'".toList ++ token ++ "'".toList) by
            simp only [List.append_assoc]; rfl, ← htext, hjargon, replaceFirst_absent hclean]
      · rw [if_neg hemp] at htext
        rw [if_neg (by simpa using hemp), expectedList_enumeration hemp]
        rw [show A ++ ("expected ".toList ++ enumeration names) ++ [] =
          kind.toList ++ ("'".toList ++ token ++ "' expected ".toList ++ enumeration names) by
            rw [← hA, show "' expected ".toList = "' ".toList ++ "expected ".toList from rfl]
            simp only [List.append_assoc, List.append_nil], ← htext, hjargon,
          replaceFirst_absent hclean]
    have hlisten : listen none e = some ⟨(syntaxErrorSpan e.offending none e.line e.column).1,
        (syntaxErrorSpan e.offending none e.line e.column).2, linePart e.line e.column ++
          humanizeMessage ("unexpected ".toList ++ text), none, none⟩ := by
      unfold listen
      rw [he]
      simp only [Option.bind_eq_bind, Option.bind_some]
      rw [key]
      rfl
    rw [hx] at hlisten
    cases hlisten
    simp only
    have hh : humanizeMessage ("unexpected ".toList ++ text) = "unexpected ".toList ++ text := by
      unfold humanizeMessage replaceAll
      rw [replaceFrom_absent (hnames "IdentifierToken" (by simp)),
        replaceFrom_absent (hnames "StringLiteral" (by simp)),
        replaceFrom_absent (hnames "IntegerLiteral" (by simp)),
        replaceFrom_absent (hnames "FloatingPointLiteral" (by simp))]
    rw [hh, positionText_eq, show " unexpected ".toList = [' '] ++ "unexpected ".toList from rfl]
    simp only [List.append_assoc]

/-! ## The end of the file -/

theorem sliceTo_beyond {s : List Char} {n : Nat} (h : utf8Len s < n) : sliceTo s n = none := by
  cases hs : sliceTo s n with
  | none => rfl
  | some p =>
    obtain ⟨q, rfl, rfl⟩ := sliceTo_some hs
    rw [utf8Len_append] at h
    omega

theorem containsStr_absent {pat : String} {s : List Char} {c : Char} (hc : c ∈ pat.toList)
    (h : c ∉ s) : containsStr pat s = false := by
  cases hb : containsStr pat s with
  | false => rfl
  | true =>
    obtain ⟨p, q, rfl⟩ := containsStr_iff.1 hb
    exact absurd (List.mem_append_left _ (List.mem_append_right _ hc)) h

theorem notMem_linePart {d : Char} (l c : Nat) (h : d ∉ "line : ".toList) (hd : d.isDigit = false) :
    d ∉ linePart l c := by
  unfold linePart
  intro hm
  simp only [List.mem_append] at hm
  rcases hm with (((hm | hm) | hm) | hm) | hm
  · exact h (by revert hm; simp; intro hm; rcases hm with hm | hm | hm | hm | hm <;> simp [hm])
  · rw [digits_isDigit l _ hm] at hd; cases hd
  · exact h (by revert hm; simp; intro hm; simp [hm])
  · rw [digits_isDigit c _ hm] at hd; cases hd
  · exact h (by revert hm; simp; intro hm; simp [hm])

theorem openBraceError_place {s : List Char} {l c i : Nat} {e x : SyntaxErr} {what help : String}
    (h : Refined s l c e) (hx : openBraceError e s i what help = some x) :
    x.offset = i ∧ x.length = 1 ∧ ∃ rest, x.message = linePart l c ++ what.toList ++ rest ∧
      ∀ before name, sliceTo s i = some before → Declaring before name →
        rest = " for ".toList ++ name.toList := by
  unfold openBraceError at hx
  rw [linePrefix_ok h] at hx
  cases h1 : sliceTo s i with
  | none => rw [h1] at hx; cases hx
  | some before =>
    rw [h1] at hx
    simp only [Option.bind_eq_bind, Option.bind_some] at hx
    cases h2 : identifyConstruct (trimEnd before) with
    | none => rw [h2] at hx; cases hx
    | some r =>
      rw [h2] at hx
      cases r with
      | none =>
        simp only [Option.bind_some, Option.some.injEq] at hx
        subst hx
        refine ⟨rfl, rfl, [], by simp, fun b name hb hd => ?_⟩
        cases hb
        rw [identifyConstruct_declaring hd] at h2
        cases h2
      | some name =>
        simp only [Option.bind_some, Option.some.injEq] at hx
        subst hx
        refine ⟨rfl, rfl, " for ".toList ++ name.toList, by simp only [List.append_assoc],
          fun b name' hb hd => ?_⟩
        cases hb
        rw [identifyConstruct_declaring hd] at h2
        cases h2
        rfl

/-- **C50, end of file.**  (Partial: the parser's error must have been worded as an unexpected end of
file, which fails for small sets of tokens, see `C50_fails_small_set`, and braces in comments count,
see `C50_fails_comment`.)  If the only error is that the file ends too early, then the report is at
the innermost opening brace that is never closed, and says so, and which kind of declaration it
belongs to; if there is none, it is at the end of the file. -/
theorem C50_end_of_file_partial {text : List Char} {e : RawError} {label help : Option (List Char)}
    (hx : listen none e = some ⟨utf8Len text, 1, positionText e.line e.column ++
      " unexpected end of file".toList, label, help⟩) :
    ∃ main, syntaxOutcome text [] [e] = some (.failed main []) ∧
      (∀ i, Unclosed text i → main.offset = i ∧ main.length = 1 ∧
        ∃ rest, main.message = positionText e.line e.column ++
          " unexpected end of file -- missing closing `}`".toList ++ rest ∧
          ∀ before after what, text = before ++ '{' :: after → utf8Len before = i →
            Declaring before what → rest = " for ".toList ++ what.toList) ∧
      ((∀ i, ¬ Unclosed text i) → main = ⟨utf8Len text, 1, positionText e.line e.column ++
        " unexpected end of file".toList, label, help⟩) := by
  have hm : positionText e.line e.column ++ " unexpected end of file".toList =
      linePart e.line e.column ++ "unexpected end of file".toList := by
    rw [positionText_eq, show " unexpected end of file".toList = [' '] ++
      "unexpected end of file".toList from rfl]
    simp only [List.append_assoc]
  rw [hm] at hx ⊢
  generalize hX : (⟨utf8Len text, 1, linePart e.line e.column ++ "unexpected end of file".toList,
    label, help⟩ : SyntaxErr) = x at *
  have hr : Refined text e.line e.column x := by
    subst hX
    exact ⟨⟨text, [], by simp, rfl⟩, Nat.le_refl _, _, rfl⟩
  have hmsg : x.message = linePart e.line e.column ++ "unexpected end of file".toList := by rw [← hX]
  have hnot : ∀ d, d ∉ "line : ".toList → d.isDigit = false →
      d ∉ "unexpected end of file".toList → d ∉ x.message := by
    intro d h1 h2 h3 h4
    rw [hmsg] at h4
    rcases List.mem_append.1 h4 with h4 | h4
    · exact notMem_linePart _ _ h1 h2 h4
    · exact h3 h4
  have htick := hnot '`' (by decide) (by decide) (by decide)
  have herr : errorText x text = none := by
    subst hX
    unfold errorText slice
    rw [if_pos (by simp), sliceTo_beyond (by simp)]
    rfl
  have hfirst : firstFound x text ([detectEmptyUnion, detectEmptyTypeParameter,
      detectFixedNonInteger, detectMissingName, detectTrailingComma] ++
      (if ([] : List SyntaxErr).isEmpty then [] else [detectMisspelled]) ++
      [detectMissingCloseBrace]) = some none := by
    have h1 : detectEmptyUnion x text = some none := by
      unfold detectEmptyUnion
      obtain ⟨b, hb, -⟩ := sliceTo_ok hr.place
      rw [hb, containsStr_absent (c := '`') (by decide) htick]
      rfl
    have h2 : detectEmptyTypeParameter x text = some none := by
      unfold detectEmptyTypeParameter; rw [herr]
    have h3 : detectFixedNonInteger x text = some none := by
      unfold detectFixedNonInteger
      rw [containsStr_absent (c := '`') (by decide) htick]
      rfl
    have h4 : detectMissingName x text = some none := by
      unfold detectMissingName; rw [herr]
    have h5 : detectTrailingComma x text = some none := by
      unfold detectTrailingComma; rw [herr]
    have h6 : detectMissingCloseBrace x text = some none := by
      unfold detectMissingCloseBrace; rw [herr]
    simp [firstFound, h1, h2, h3, h4, h5, h6]
  have hall : listenAll none [e] = some [x] := by simp [listenAll, hx]
  have hcont : containsStr "unexpected end of file" x.message = true :=
    containsStr_iff.2 ⟨linePart e.line e.column, [], by rw [hmsg]; simp⟩
  have hrefine : refine [x] text = (do
      match ← detectUnclosedBrace x text with
      | some r => some [r]
      | none => some [x]) := by
    unfold refine
    simp only
    rw [hfirst]
    rfl
  have houtcome : ∀ {m}, refine [x] text = some [m] →
      syntaxOutcome text [] [e] = some (.failed m []) := by
    intro m h
    unfold syntaxOutcome
    rw [hall]
    simp only [listenAll, Option.bind_eq_bind, Option.bind_some]
    simp [h]
  cases hob : openBraces text with
  | nil =>
    have hnone : ∀ i, ¬ Unclosed text i := by
      intro i hi
      have := openBraces_head.2 hi
      rw [hob] at this
      cases this
    refine ⟨x, houtcome ?_, fun i hi => absurd hi (hnone i), fun _ => rfl⟩
    rw [hrefine]
    unfold detectUnclosedBrace
    rw [hcont, hob]
    rfl
  | cons i st =>
    have hu : Unclosed text i := openBraces_head.1 (by rw [hob]; rfl)
    obtain ⟨p, q, hp, hpi⟩ := hu.brace
    obtain ⟨m, hm', -⟩ := openBraceError_ok hr hp "unexpected end of file -- missing closing `}`"
      "add a closing `}` to match this opening brace"
    rw [hpi] at hm'
    refine ⟨m, houtcome ?_, fun j hj => ?_, fun h => absurd hu (h i)⟩
    · rw [hrefine]
      unfold detectUnclosedBrace
      rw [hcont, hob]
      simp only [Bool.not_true, Bool.false_eq_true, if_false, hm', Option.map_some]
      rfl
    · have hj' := openBraces_head.2 hj
      rw [hob] at hj'
      cases hj'
      obtain ⟨h1, h2, rest, h3, h4⟩ := openBraceError_place hr hm'
      refine ⟨h1, h2, rest, ?_, fun before after what ht hi hd => h4 before what ?_ hd⟩
      rotate_left
      · rw [ht, ← hi]; exact sliceTo_append _ _
      rw [h3, positionText_eq, show " unexpected end of file -- missing closing `}`".toList = [' '] ++
        "unexpected end of file -- missing closing `}`".toList from rfl]
      simp only [List.append_assoc]

end Avdl.Props

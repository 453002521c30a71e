import Verif.Lemmas.NodeSpans
import Verif.Lemmas.SyntaxMessages
import Verif.Lemmas.SyntaxErrors
import Verif.Lemmas.Tokens
import Verif.Props.Spans
import Verif.Spec.Warnings
import Verif.WarningText
/-!
# Lemmas for the texts and places of warnings
-/

namespace Avdl
open Spec Spec.Lexing Spec.Grammar Spec.Tokens

/-! ## Lines and columns -/

theorem columnOf_append_newline (a : List Char) : columnOf (a ++ ['\n']) = 0 := by
  simp [columnOf, lastLine]

theorem columnOf_append_char (a : List Char) {c : Char} (h : c ≠ '\n') :
    columnOf (a ++ [c]) = columnOf a + 1 := by
  simp [columnOf, lastLine, h]

theorem advance_place (t : List Char) : ∀ a : List Char,
    advance (lineOf a, columnOf a) t = (lineOf (a ++ t), columnOf (a ++ t)) := by
  induction t with
  | nil => intro a; simp [advance]
  | cons c t ih =>
    intro a
    have hs : a ++ c :: t = (a ++ [c]) ++ t := by simp
    rw [advance, hs, ← ih (a ++ [c])]
    congr 1
    by_cases h : c = '\n'
    · subst h
      rw [if_pos rfl, columnOf_append_newline]
      simp [lineOf]
    · rw [if_neg h, columnOf_append_char a h]
      simp [lineOf, h]

theorem marksOf_placed (ps : List Piece) : ∀ before : List Char,
    marksOf (lineOf before, columnOf before) (utf8Len before) ps =
      ((placed before ps).filter fun x => match x.2.kind with
        | some k => !k.skipped
        | none => false).map fun x =>
          ⟨lineOf x.1, columnOf x.1, utf8Len x.1, utf8Len x.1 + utf8Len x.2.text - 1⟩ := by
  induction ps with
  | nil => intro _; rfl
  | cons p ps ih =>
    intro before
    have h := ih (before ++ p.text)
    rw [← advance_place, utf8Len_append] at h
    rw [marksOf, placed, List.filter_cons]
    cases hk : p.kind with
    | none => simpa [hk] using h
    | some k =>
      cases hs : k.skipped with
      | true => simpa [hk, hs] using h
      | false => simp [hk, hs, h]

theorem newline_lastLine (before : List Char) : '\n' ∉ lastLine before := by
  unfold lastLine
  induction before.reverse with
  | nil => simp
  | cons c cs ih =>
    rw [List.takeWhile_cons]
    split
    · rename_i h
      rw [List.mem_cons, not_or]
      exact ⟨fun e => by simp [← e] at h, ih⟩
    · simp

theorem dropWhile_newline : ∀ cs : List Char, cs.dropWhile (· ≠ '\n') = [] ∨
    ∃ r, cs.dropWhile (· ≠ '\n') = '\n' :: r
  | [] => .inl rfl
  | c :: cs => by
      by_cases h : c = '\n'
      · subst h; exact .inr ⟨cs, rfl⟩
      · rw [List.dropWhile_cons_of_pos (by simp [h])]
        exact dropWhile_newline cs

/-- What stands to the left in the last line, and the lines above. -/
theorem place_at (before : List Char) :
    Props.At before (lastLine before).reverse (lineOf before) (columnOf before) := by
  refine ⟨(before.reverse.dropWhile (· ≠ '\n')).reverse, ?_, ?_, by simp [columnOf], ?_, ?_⟩
  · rw [← List.reverse_append, lastLine, List.takeWhile_append_dropWhile, List.reverse_reverse]
  · exact fun h => newline_lastLine before (List.mem_reverse.mp h)
  · rcases dropWhile_newline before.reverse with h | ⟨r, h⟩
    · exact .inl (by rw [h]; rfl)
    · exact .inr ⟨r.reverse, by rw [h, List.reverse_cons]⟩
  · have e : before = (before.reverse.dropWhile (· ≠ '\n')).reverse ++ (lastLine before).reverse := by
      rw [← List.reverse_append, lastLine, List.takeWhile_append_dropWhile, List.reverse_reverse]
    have h0 : (lastLine before).reverse.count '\n' = 0 := by
      rw [List.count_eq_zero]
      exact fun h => newline_lastLine before (List.mem_reverse.mp h)
    unfold lineOf
    conv => lhs; rw [e]
    rw [List.count_append, h0]

/-! ## Errors of the lexer -/

theorem lexErrorsOf_placed {file : String} {source : List Char} (ps : List Piece) :
    ∀ before : List Char, source = before ++ ps.flatMap Piece.text →
    Matching (LexErrorAt file) ((placed before ps).filter fun x => x.2.kind.isNone)
      (lexErrorsOf file source (lineOf before, columnOf before) ps) := by
  induction ps with
  | nil => intro _ _; exact .nil
  | cons p ps ih =>
    intro before hs
    have h := ih (before ++ p.text) (by rw [hs]; simp)
    rw [← advance_place] at h
    rw [lexErrorsOf, placed, List.filter_cons]
    cases hk : p.kind with
    | some k => simpa [hk] using h
    | none =>
      simp only [hk, Option.isNone_none, if_true]
      refine .cons ⟨by simp, rfl, rfl, rfl, fun ha => ⟨?_, rfl⟩⟩ h
      have := Props.C36_line_column_exact_partial (after := (p :: ps).flatMap Piece.text)
        (place_at before) fun c hc => ha c (List.mem_reverse.mp hc)
      rw [← hs] at this
      exact this

/-! ## Doc comments -/

theorem streamOf_placed (ps : List Piece) : ∀ before : List Char,
    streamOf (utf8Len before) ps =
      ((placed before ps).filter fun x => match x.2.kind with
        | some k => !k.skipped
        | none => false).map fun x =>
          ⟨x.2.kind.getD .ws, String.ofList x.2.text, utf8Len x.1⟩ := by
  induction ps with
  | nil => intro _; rfl
  | cons p ps ih =>
    intro before
    have h := ih (before ++ p.text)
    rw [utf8Len_append] at h
    rw [streamOf, placed, List.filter_cons]
    cases hk : p.kind with
    | none => simpa [hk] using h
    | some k =>
      cases hs : k.skipped with
      | true => simpa [hk, hs] using h
      | false => simp [hk, hs, h]

theorem tokenType_doc {k : Kind} (h : k.tokenType = .doc) : k = .doc := by
  cases k <;> first | rfl | cases h

theorem placed_mem {ps : List Piece} : ∀ {before : List Char} {x : List Char × Piece},
    x ∈ placed before ps → x.2 ∈ ps := by
  induction ps with
  | nil => intro _ _ h; cases h
  | cons p ps ih =>
    intro before x h
    rcases List.mem_cons.mp h with rfl | h
    · exact List.mem_cons_self ..
    · exact List.mem_cons_of_mem _ (ih h)

theorem pieces_ne_nil {cs : List Char} {ps : List Piece} (h : Pieces cs ps) :
    ∀ p ∈ ps, p.text ≠ [] := by
  induction h with
  | done => intro _ h; cases h
  | token h _ ih =>
    intro p hp
    rcases List.mem_cons.mp hp with rfl | hp
    · exact h.1
    · exact ih p hp
  | unrecognised h _ ih =>
    intro p hp
    rcases List.mem_cons.mp hp with rfl | hp
    · exact h.1
    · exact ih p hp

theorem utf8Len_nonempty {cs : List Char} (h : cs ≠ []) : 0 < utf8Len cs := by
  cases cs with
  | nil => exact absurd rfl h
  | cons c cs => simp only [utf8Len]; have := Char.utf8Size_pos c; omega

theorem docWarning_at {file text : String} {src : Source} (hp : parseSource file text = some src)
    {i : Nat} {t : Token} (ht : src.tokens[i]? = some t) (hd : t.type = .doc) :
    DocWarningAt file (lex (cutAtSub text.toList)) i (docWarning src.marks file i) := by
  unfold parseSource at hp
  obtain ⟨tree, -, rfl⟩ := Option.map_eq_some_iff.mp hp
  dsimp only at ht ⊢
  generalize hps : lex (cutAtSub text.toList) = ps at ht ⊢
  have hne := pieces_ne_nil (lex_iff.mpr hps)
  have e1 := streamOf_placed ps []
  have e2 := marksOf_placed ps []
  change streamOf 0 ps = (streamed ps).map _ at e1
  change marksOf (1, 0) 0 ps = (streamed ps).map _ at e2
  rw [e1] at ht
  by_cases hi : i < (streamed ps).length
  · rw [List.getElem?_append_left (by simpa using hi), List.getElem?_map, List.getElem?_map,
      List.getElem?_eq_getElem hi] at ht
    generalize hx : (streamed ps)[i] = x at ht
    have hm : x ∈ streamed ps := hx ▸ List.getElem_mem hi
    obtain ⟨hm1, hm2⟩ := List.mem_filter.mp hm
    obtain ⟨before, k, w⟩ := x
    cases ht
    cases k with
    | none => cases hm2
    | some k =>
      cases tokenType_doc hd
      refine ⟨before, w, by rw [List.getElem?_eq_getElem hi, hx], ?_⟩
      unfold docWarning
      rw [e2, List.getD_eq_getElem?_getD, List.getElem?_map, List.getElem?_eq_getElem hi, hx]
      have := utf8Len_nonempty (hne _ (placed_mem hm1))
      dsimp only at this
      simp only [Option.map_some, Option.getD_some, spanFromOffsets]
      rw [if_pos (by omega)]
      simp only [Warning.outOfPlaceDoc.injEq, true_and, Span.mk.injEq, and_true]
      omega
  · rw [List.getElem?_append_right (by simpa using hi)] at ht
    cases hj : i - (((streamed ps).map fun x =>
      (⟨x.2.kind.getD .ws, String.ofList x.2.text, utf8Len x.1⟩ : LexToken)).map fun t =>
        (⟨t.kind.tokenType, t.text⟩ : Token)).length with
    | zero => rw [hj] at ht; cases ht; cases hd
    | succ j => rw [hj] at ht; cases ht

/-! ## Phrases -/

/-- A phrase without the separator is on one side of it. -/
theorem infix_separated {pat a b : List Char} {c : Char} (hc : c ∉ pat)
    (h : pat <:+: a ++ c :: b) : pat <:+: a ∨ pat <:+: b := by
  obtain ⟨p, q, h⟩ := h
  rw [List.append_assoc] at h
  rcases List.append_eq_append_iff.mp h with ⟨x, h1, h2⟩ | ⟨x, h1, h2⟩
  · -- the phrase begins in `a`
    rcases List.append_eq_append_iff.mp h2 with ⟨y, h3, h4⟩ | ⟨y, h3, h4⟩
    · left
      exact ⟨p, y, by rw [h1, h3, List.append_assoc]⟩
    · cases y with
      | nil => left; exact ⟨p, [], by rw [h1, h3]; simp⟩
      | cons d y =>
        injection h4 with h4 h5
        subst h4
        exact absurd (by rw [h3]; simp) hc
  · cases x with
    | nil =>
      simp only [List.nil_append] at h2
      cases pat with
      | nil => exact .inl ⟨[], a, rfl⟩
      | cons d pat =>
        injection h2 with h2 _
        subst h2
        exact absurd (List.mem_cons_self ..) hc
    | cons d x =>
      injection h2 with h2 h3
      exact .inr ⟨x, q, by rw [List.append_assoc]; exact h3.symm⟩

theorem containsStr_infix {pat : String} {s : List Char} :
    containsStr pat s = true ↔ pat.toList <:+: s := by
  rw [containsStr_iff]
  exact ⟨fun ⟨p, q, h⟩ => ⟨p, q, h.symm⟩, fun ⟨p, q, h⟩ => ⟨p, q, h.symm⟩⟩

theorem containsStr_not_infix {pat : String} {s : List Char} (h : ¬ pat.toList <:+: s) :
    containsStr pat s = false := by
  rw [Bool.eq_false_iff]
  exact fun hc => h (containsStr_infix.mp hc)

theorem findStr_not_infix {pat s : List Char} (h : ¬ pat <:+: s) : findStr pat s = none := by
  cases hf : findStr pat s with
  | none => rfl
  | some n =>
    obtain ⟨p, q, hs, -⟩ := findStr_some hf
    exact absurd ⟨p, q, hs.symm⟩ h

theorem replaceAll_not_infix {pat rep : String} {s : List Char} (h : ¬ pat.toList <:+: s) :
    replaceAll pat rep s = s :=
  replaceFrom_absent fun ⟨p, q, hs⟩ => h ⟨p, q, hs.symm⟩

theorem quoted_eq {a b c x : List Char} (h : a = b ++ ['\'']) (h' : c = ['\'']) :
    a ++ x ++ c = b ++ '\'' :: (x ++ '\'' :: []) := by
  subst h h'; simp

theorem lexMessage_eq (text : String) : lexMessage text =
    "token recognition error at: ".toList ++ '\'' :: (text.toList ++ '\'' :: []) :=
  quoted_eq (by decide +kernel) (by decide +kernel)

/-- A phrase without single quotes in a message about unrecognised text is in the text. -/
theorem lexMessage_infix {pat : List Char} {text : String} (hq : '\'' ∉ pat) (hn : pat ≠ [])
    (ha : ¬ pat <:+: "token recognition error at: ".toList) (h : pat <:+: lexMessage text) :
    pat <:+: text.toList := by
  rw [lexMessage_eq] at h
  rcases infix_separated hq h with h | h
  · exact absurd h ha
  · rcases infix_separated hq h with h | h
    · exact h
    · exact absurd (List.infix_nil.mp h) hn

/-- The message about unrecognised text that has no words of ANTLR's. -/
theorem listen_lexMessage {text : String} {line column : Nat}
    (h : ∀ ph ∈ rewordedPhrases, ¬ ContainsPhrase text ph) :
    listen none ⟨none, line, column, lexMessage text⟩ =
      some ⟨0, 0, linePart line column ++ lexMessage text, none, none⟩ := by
  have key : ∀ ph ∈ rewordedPhrases, ¬ ph.toList <:+: lexMessage text := by
    intro ph hm hi
    refine h ph hm (lexMessage_infix ?_ ?_ ?_ hi)
    · exact (by decide +kernel : ∀ ph ∈ rewordedPhrases, '\'' ∉ ph.toList) ph hm
    · exact (by decide +kernel : ∀ ph ∈ rewordedPhrases, ph.toList ≠ []) ph hm
    · exact (by decide +kernel : ∀ ph ∈ rewordedPhrases,
        ¬ ph.toList <:+: "token recognition error at: ".toList) ph hm
  have sub : ∀ {x y : List Char}, x <:+: y → ¬ x <:+: lexMessage text → ¬ y <:+: lexMessage text :=
    fun hxy hx hy => hx (hxy.trans hy)
  have k1 := sub (y := "no viable alternative at input '".toList) ⟨[], _, rfl⟩
    (key "no viable" (by decide +kernel))
  have k2 := key "expecting" (by decide)
  have k3 := sub (y := "expecting {".toList) ⟨[], _, rfl⟩ k2
  have k4 := sub (y := "expecting '('".toList) ⟨[], _, rfl⟩ k2
  have en : enrich (lexMessage text) = some none := by
    unfold enrich
    have : noViableInput (lexMessage text) = some none := by
      unfold noViableInput
      rw [findStr_not_infix k1]
    rw [this]
    simp only [Option.bind_eq_bind, Option.bind_some, Option.any_none, Bool.false_eq_true, if_false]
    rw [containsStr_not_infix k4]
    simp only [Bool.false_and, Bool.false_eq_true, if_false]
    unfold simplifyExpecting expectingTokens
    rw [findStr_not_infix k3]
    rfl
  have sa : sanitize (lexMessage text) = some (lexMessage text) := by
    unfold sanitize
    rw [findStr_not_infix k3, replaceAll_not_infix (key "<EOF>" (by decide +kernel))]
    rfl
  have hu : humanizeMessage (lexMessage text) = lexMessage text := by
    unfold humanizeMessage
    rw [replaceAll_not_infix (key "IdentifierToken" (by decide +kernel)),
      replaceAll_not_infix (key "StringLiteral" (by decide +kernel)),
      replaceAll_not_infix (key "IntegerLiteral" (by decide +kernel)),
      replaceAll_not_infix (key "FloatingPointLiteral" (by decide +kernel))]
  unfold listen
  simp only [Option.bind_eq_bind, en, sa, hu, Option.bind_some]
  rfl

/-! ## Keys of annotations -/

theorem identPart_blank : isIdentPart ' ' = false := by decide +kernel

theorem identStart_blank : isIdentStart ' ' = false := by decide +kernel

theorem namePart_blank {w : List Char} (h : NamePart w) : ' ' ∉ w := by
  cases h with
  | mk h1 h2 =>
    intro h
    rcases List.mem_cons.mp h with rfl | h
    · rw [identStart_blank] at h1; cases h1
    · have := h2 _ h; rw [identPart_blank] at this; cases this

theorem nameText_blank {w : List Char} (h : NameText w) : ' ' ∉ w := by
  have q : ∀ {p}, QuotedPart p → ' ' ∉ p := by
    intro p h
    cases h with
    | plain h => exact namePart_blank h
    | quoted h => have := namePart_blank h; simp [this]
  induction h with
  | one h => exact q h
  | more h hs _ ih =>
    have := q h
    rcases hs with rfl | rfl <;> simp [this, ih]

theorem ident_blank {file text : String} {t : PTok} (ht : t ∈ sourceTokens file text)
    (hi : Ident t) : ' ' ∉ t.text.toList := by
  obtain ⟨x, hx, hk, htx⟩ := parserTokens_mem ht
  obtain ⟨p, hp, hpk, hpt⟩ := streamOf_mem hx
  obtain ⟨r, hr, hrk, hm⟩ := piece_rule (lex_iff.mpr rfl) p hp x.kind hpk
  have htext := (rule_text hr).mp hm
  rw [hrk, hk] at htext
  rw [← htx, hpt, String.toList_ofList]
  rcases hi with hi | ⟨w, hi⟩
  · rw [hi] at htext
    exact nameText_blank (text_ident htext)
  · rw [hi] at htext
    obtain ⟨h1, h2⟩ := text_kw htext
    rw [h2]
    exact (by decide +kernel : ∀ w ∈ reserved, ' ' ∉ w.toList) w h1

theorem many_names {ts : List PTok} {as : List Annot} (h : Many Property ts as) :
    ∀ a ∈ as, ∃ t ∈ ts, Ident t ∧ a.name = t.text := by
  induction h with
  | nil => intro a h; cases h
  | cons h _ ih =>
    intro a ha
    rcases List.mem_cons.mp ha with rfl | ha
    · cases h with
      | @mk _ name _ _ _ _ _ h1 _ _ _ => exact ⟨name, by simp, h1, rfl⟩
    · obtain ⟨t, ht, h⟩ := ih a ha
      exact ⟨t, List.mem_append_right _ ht, h⟩

theorem identifierText_blank {s : String} (h : ' ' ∉ s.toList) : ' ' ∉ (identifierText s).toList := by
  rw [identifierText, String.toList_ofList]
  exact fun hm => h (List.mem_filter.mp hm).1

/-- The keys of dropped annotations have no blanks. -/
theorem dropped_blank [CharTables] [FloatTables] {file text : String} {keys : List String}
    {span : Option Span} (h : WarningAt file text (.annotationsDropped keys span)) :
    ∀ k ∈ keys, ' ' ∉ k.toList := by
  obtain ⟨node, s, hn, ha, -⟩ := h
  intro k hk
  cases ha with
  | dropped hf hkeys =>
    obtain ⟨a, ha, rfl⟩ := List.mem_map.mp ((hkeys k).mp hk)
    cases hf with
    | mk hm _ =>
      obtain ⟨t, ht, hi, e⟩ := many_names hm a ha
      rw [e]
      exact identifierText_blank (ident_blank (hn.subset (List.mem_append_left _ ht)) hi)

/-! ## Labels -/

theorem joined_blanks {pat : List Char} (hc : ',' ∉ pat) : ∀ {keys : List String},
    (∀ k ∈ keys, ' ' ∉ k.toList) → pat <:+: ' ' :: joinWith ", " (keys.map String.toList) →
    pat.count ' ' ≤ 1
  | [], _, h => by
      have := h.sublist.count_le ' '
      simpa [joinWith] using this
  | [k], hk, h => by
      have h1 := h.sublist.count_le ' '
      have h2 := List.count_eq_zero.mpr (hk k (by simp))
      simp only [List.map_cons, List.map_nil, joinWith, List.count_cons, h2] at h1
      simpa using h1
  | k :: k' :: ks, hk, h => by
      have e : ' ' :: joinWith ", " ((k :: k' :: ks).map String.toList) =
          (' ' :: k.toList) ++ ',' :: (' ' :: joinWith ", " ((k' :: ks).map String.toList)) := by
        simp only [List.map_cons, joinWith, List.append_assoc, List.cons_append]
        rfl
      rw [e] at h
      rcases infix_separated hc h with h | h
      · have h1 := h.sublist.count_le ' '
        have h2 := List.count_eq_zero.mpr (hk k (by simp))
        simp only [List.count_cons, h2] at h1
        simpa using h1
      · exact joined_blanks hc (fun x hx => hk x (List.mem_cons_of_mem _ hx)) h

theorem digits_letter {c : Char} (h : c.isDigit = false) (n : Nat) : c ∉ Nat.toDigits 10 n := by
  intro hm
  have := Nat.isDigit_of_mem_toDigits (b := 10) (by decide) (by decide) hm
  rw [h] at this
  cases this

theorem label_doc (i line column : Nat) (s : Span) :
    (Warning.outOfPlaceDoc i line column s).label = some "out-of-place doc comment" := by
  simp only [Warning.label, Warning.message, Option.map_some]
  rw [labelOf, if_pos]
  rw [containsStr_infix]
  exact (by decide +kernel : "out-of-place documentation comment".toList <:+:
    (": Ignoring out-of-place documentation comment.\n" ++
      "Did you mean to use a multiline comment ( /* ... */ ) instead?").toList).trans
    ⟨_, [], List.append_nil _⟩

theorem label_dropped {keys : List String} (hk : ∀ k ∈ keys, ' ' ∉ k.toList) (s : Option Span) :
    (Warning.walk (.annotationsDropped keys s)).label = some "annotations ignored here" := by
  simp only [Warning.label, Warning.message, Option.map_some]
  have e : "Annotations on union types are not supported and will be ignored: ".toList ++
      joinWith ", " (keys.map String.toList) =
      "Annotations on union types are not supported and will be ignored".toList ++ ':' ::
        (' ' :: joinWith ", " (keys.map String.toList)) := by
    have : "Annotations on union types are not supported and will be ignored: ".toList =
        "Annotations on union types are not supported and will be ignored".toList ++ [':', ' '] := by
      decide +kernel
    rw [this, List.append_assoc, List.cons_append, List.cons_append, List.nil_append]
  have none : ∀ ph : String, ':' ∉ ph.toList → ',' ∉ ph.toList → 1 < ph.toList.count ' ' →
      ¬ ph.toList <:+: "Annotations on union types are not supported and will be ignored".toList →
      containsStr ph ("Annotations on union types are not supported and will be ignored: ".toList ++
        joinWith ", " (keys.map String.toList)) = false := by
    intro ph h1 h2 h3 h4
    refine containsStr_not_infix fun h => ?_
    rw [e] at h
    rcases infix_separated h1 h with h | h
    · exact h4 h
    · have := joined_blanks h2 hk h
      omega
  rw [labelOf, none _ (by decide +kernel) (by decide +kernel) (by decide +kernel) (by decide +kernel),
    none _ (by decide +kernel) (by decide +kernel) (by decide +kernel) (by decide +kernel),
    if_neg (by decide), if_neg (by decide), if_pos]
  rw [containsStr_infix]
  exact (by decide +kernel : "Annotations on union types".toList <:+:
    "Annotations on union types are not supported and will be ignored: ".toList).trans ⟨[], _, rfl⟩

theorem label_alias {a : String} (ha : ∀ ph ∈ labelPhrases, ¬ ContainsPhrase a ph)
    (s : Option Span) :
    (Warning.walk (.nonStandardAlias a s)).label = some "non-standard alias name" := by
  simp only [Warning.label, Warning.message, Option.map_some]
  generalize hr : ("\" is not a valid Avro name. " ++
        "While any string is accepted to allow schema evolution to " ++
        "correct illegal names in old schemata, aliases should ideally be valid names.").toList = rest
  obtain ⟨rest', hr', hno, hin⟩ : ∃ rest', rest = '"' :: rest' ∧
      (∀ ph ∈ labelPhrases, ¬ ph.toList <:+: rest') ∧
      "is not a valid Avro name".toList <:+: rest' := by
    refine ⟨(" is not a valid Avro name. " ++
        "While any string is accepted to allow schema evolution to " ++
        "correct illegal names in old schemata, aliases should ideally be valid names.").toList,
      ?_, by decide +kernel, by decide +kernel⟩
    rw [← hr]; decide +kernel
  have e : "Alias \"".toList ++ a.toList ++ rest = "Alias ".toList ++ '"' :: (a.toList ++ '"' :: rest') := by
    rw [hr', List.append_assoc]
    rfl
  have none : ∀ ph ∈ labelPhrases, containsStr ph ("Alias \"".toList ++ a.toList ++ rest) = false := by
    intro ph hm
    refine containsStr_not_infix fun h => ?_
    rw [e] at h
    have hq := (by decide +kernel : ∀ ph ∈ labelPhrases, '"' ∉ ph.toList) ph hm
    rcases infix_separated hq h with h | h
    · exact (by decide +kernel : ∀ ph ∈ labelPhrases, ¬ ph.toList <:+: "Alias ".toList) ph hm h
    · rcases infix_separated hq h with h | h
      · exact ha ph hm h
      · exact hno ph hm h
  rw [labelOf, none _ (by decide +kernel), none _ (by decide +kernel), none _ (by decide +kernel),
    if_neg (by decide), if_neg (by decide), if_neg (by decide), if_pos]
  rw [containsStr_infix, e]
  exact hin.trans ⟨"Alias ".toList ++ '"' :: (a.toList ++ ['"']), [], by simp⟩

theorem infix_mem {a b : List Char} {c : Char} (h : a <:+: b) (hc : c ∈ a) : c ∈ b := h.subset hc

theorem linePart_letter (line column : Nat) :
    'd' ∉ linePart line column ++ "token recognition error at: ".toList := by
  have h1 := digits_letter (c := 'd') (by decide) line
  have h2 := digits_letter (c := 'd') (by decide) column
  have h3 : 'd' ∉ "line ".toList := by decide +kernel
  have h4 : 'd' ∉ ":".toList := by decide +kernel
  have h5 : 'd' ∉ " ".toList := by decide +kernel
  have h6 : 'd' ∉ "token recognition error at: ".toList := by decide +kernel
  unfold linePart
  revert h3 h4 h5 h6
  generalize "line ".toList = a
  generalize ":".toList = b
  generalize " ".toList = c
  generalize "token recognition error at: ".toList = d
  intro h3 h4 h5 h6
  simp [h1, h2, h3, h4, h5, h6]

theorem label_lexer {e : LexError}
    (h : ∀ ph ∈ rewordedPhrases ++ labelPhrases, ¬ ContainsPhrase e.text ph) :
    (Warning.lexer e).label = some "unrecognized token" := by
  simp only [Warning.label, Warning.message]
  rw [listen_lexMessage fun ph hm => h ph (List.mem_append_left _ hm)]
  simp only [Option.map_some]
  have e1 : linePart e.line e.column ++ lexMessage e.text =
      (linePart e.line e.column ++ "token recognition error at: ".toList) ++ '\'' ::
        (e.text.toList ++ '\'' :: []) := by
    rw [lexMessage_eq, List.append_assoc]
  have c1 : containsStr "out-of-place documentation comment"
      (linePart e.line e.column ++ lexMessage e.text) = false := by
    refine containsStr_not_infix fun hi => ?_
    rw [e1] at hi
    rcases infix_separated (by decide +kernel) hi with hi | hi
    · exact linePart_letter _ _ (infix_mem hi (by decide +kernel))
    · rcases infix_separated (by decide +kernel) hi with hi | hi
      · exact h _ (List.mem_append_right _ (by decide +kernel)) hi
      · exact absurd (List.infix_nil.mp hi) (by decide +kernel)
  rw [labelOf, c1, if_neg (by decide), if_pos]
  rw [containsStr_infix, e1]
  exact (by decide +kernel : "token recognition error".toList <:+:
    "token recognition error at: ".toList).trans ⟨linePart e.line e.column, _, rfl⟩

end Avdl

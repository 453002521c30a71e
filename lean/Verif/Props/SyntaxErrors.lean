import Verif.Lemmas.Braces
import Verif.Props.SourceSpans
/-!
# Syntax errors are reported, at a place in the text (C49)

Which errors ANTLR reports, and in which words, is not modelled: the theorems hold for any list of
errors of lexer and parser, with any messages.  What is assumed of them is that the parser's errors
are at tokens of the text (or without a token) and that the lexer's errors have no token.
-/

namespace Avdl.Props
open Spec Spec.Lexing

/-- What the parser complains about: a piece of the text, the end of the text, a token made up by
error recovery (it has no position), or nothing. -/
inductive TokenIn (text : List Char) : Option TokenPos → Prop
  | word {before word after : List Char} : text = before ++ word ++ after →
      TokenIn text (some ⟨utf8Len before, (utf8Len before + utf8Len word : Int) - 1⟩)
  | endOfText : TokenIn text (some ⟨utf8Len text, (utf8Len text : Int) - 1⟩)
  | madeUp {i j : Int} : i < 0 → j < 0 → TokenIn text (some ⟨i, j⟩)
  | nothing : TokenIn text none

/-- The position as it is written in messages. -/
def positionText (line column : Nat) : List Char := s!"line {line}:{column}".toList

/-- The message begins with the position of the error. -/
def AtPosition (e : RawError) (message : List Char) : Prop :=
  ∃ rest, message = positionText e.line e.column ++ rest

theorem positionText_eq (l c : Nat) : linePart l c = positionText l c ++ [' '] := by
  unfold linePart positionText
  have h : ∀ n : Nat, (toString n).toList = Nat.toDigits 10 n := by
    intro n
    show (Nat.repr n).toList = _
    simp [Nat.repr]
  simp only [String.toList_append, h, List.append_assoc]
  rfl

theorem syntaxSpan_place {text : List Char} {t : Option TokenPos} (h : TokenIn text t)
    (line column : Int) :
    Boundary text (syntaxErrorSpan t none line column).1 ∧
      (syntaxErrorSpan t none line column).1 + (syntaxErrorSpan t none line column).2 ≤
        utf8Len text + 1 := by
  have hz : Boundary text 0 := ⟨[], text, rfl, rfl⟩
  cases h with
  | @word p w q hs =>
    simp only [syntaxErrorSpan, spanFromOffsets]
    have hlen : utf8Len text = utf8Len p + utf8Len w + utf8Len q := by
      rw [hs, utf8Len_append, utf8Len_append]
    split
    · refine ⟨⟨p, w ++ q, by rw [hs]; simp, by simp⟩, ?_⟩
      simp only
      omega
    · rw [if_pos (by omega)]
      refine ⟨⟨p, w ++ q, by rw [hs]; simp, by simp⟩, ?_⟩
      simp only
      omega
  | endOfText =>
    simp only [syntaxErrorSpan, spanFromOffsets]
    rw [if_neg (by omega), if_pos (by omega)]
    exact ⟨⟨text, [], by simp, by simp⟩, by simp⟩
  | madeUp h1 h2 =>
    simp only [syntaxErrorSpan, spanFromOffsets_neg h1]
    exact ⟨hz, by simp⟩
  | nothing => exact ⟨hz, by simp [syntaxErrorSpan]⟩

theorem listenAll_parser {text : List Char} : ∀ {es : List RawError},
    (∀ e ∈ es, TokenIn text e.offending) →
    Ok (listenAll none es) fun xs => xs.length = es.length ∧
      ∀ x ∈ xs, Reported text (es.map fun e => (e.line, e.column)) x := by
  intro es
  induction es with
  | nil => intro _; exact .pure ⟨rfl, fun _ h => by cases h⟩
  | cons e es ih =>
    intro h
    unfold listenAll
    refine .bind (listen_ok none e) fun x hx => ?_
    refine .bind (ih fun e he => h e (List.mem_cons_of_mem _ he)) fun xs hxs => ?_
    refine .pure ⟨by simp [hxs.1], fun y hy => ?_⟩
    rcases List.mem_cons.1 hy with rfl | hy
    · obtain ⟨hsp, hm⟩ := hx
      obtain ⟨h1, h2⟩ := syntaxSpan_place (h e (List.mem_cons_self ..)) e.line e.column
      rw [← hsp] at h1 h2
      exact ⟨(e.line, e.column), by simp, h1, h2, hm⟩
    · obtain ⟨p, hp, hr⟩ := hxs.2 y hy
      exact ⟨p, by simp only [List.map_cons, List.mem_cons]; exact .inr hp, hr⟩

theorem listenAll_lexer {text : List Char} : ∀ {es : List RawError},
    (∀ e ∈ es, e.offending = none) →
    Ok (listenAll (some text) es) fun xs => xs.length = es.length ∧
      ∀ x ∈ xs, Renderable (utf8Len text) (x.offset, x.length) ∧
        ∃ e ∈ es, ∃ rest, x.message = linePart e.line e.column ++ rest := by
  intro es
  induction es with
  | nil => intro _; exact .pure ⟨rfl, fun _ h => by cases h⟩
  | cons e es ih =>
    intro h
    unfold listenAll
    refine .bind (listen_ok (some text) e) fun x hx => ?_
    refine .bind (ih fun e he => h e (List.mem_cons_of_mem _ he)) fun xs hxs => ?_
    refine .pure ⟨by simp [hxs.1], fun y hy => ?_⟩
    rcases List.mem_cons.1 hy with rfl | hy
    · obtain ⟨hsp, hm⟩ := hx
      rw [h e (List.mem_cons_self ..)] at hsp
      refine ⟨?_, e, List.mem_cons_self .., hm⟩
      rw [hsp]
      exact (C36_line_column_in_range text e.line e.column).2
    · obtain ⟨h1, e', he', h2⟩ := hxs.2 y hy
      exact ⟨h1, e', List.mem_cons_of_mem _ he', h2⟩

theorem no_letter_t (l c : Nat) : 't' ∉ linePart l c := by
  unfold linePart
  intro h
  simp only [List.mem_append] at h
  rcases h with (((h | h) | h) | h) | h
  · exact absurd h (by decide)
  · exact absurd (digits_isDigit l _ h) (by decide)
  · exact absurd h (by decide)
  · exact absurd (digits_isDigit c _ h) (by decide)
  · exact absurd h (by decide)

theorem trimEnd_position (l c : Nat) (rest : List Char) :
    ∃ r, trimEnd (linePart l c ++ rest) = positionText l c ++ r := by
  have hlast : ∃ p d, positionText l c = p ++ [d] ∧ isWhitespace d = false := by
    have hne : Nat.toDigits 10 c ≠ [] := Nat.toDigits_ne_nil
    have heq := positionText_eq l c
    unfold linePart at heq
    have hp : positionText l c = "line ".toList ++ Nat.toDigits 10 l ++ ":".toList ++
        Nat.toDigits 10 c := by
      refine (List.append_cancel_right (as := positionText l c) (bs := [' ']) ?_)
      rw [← heq]
      rfl
    refine ⟨"line ".toList ++ Nat.toDigits 10 l ++ ":".toList ++ (Nat.toDigits 10 c).dropLast,
      (Nat.toDigits 10 c).getLast hne, ?_, ?_⟩
    · rw [hp]
      conv => lhs; rw [← List.dropLast_concat_getLast hne]
      simp only [List.append_assoc]
    · have hd := digits_isDigit c _ (List.getLast_mem hne)
      generalize (Nat.toDigits 10 c).getLast hne = d at hd
      simp only [Char.isDigit, Bool.and_eq_true, decide_eq_true_eq, UInt32.le_iff_toNat_le] at hd
      have e1 : '0'.val.toNat = 48 := rfl
      have e2 : '9'.val.toNat = 57 := rfl
      have e3 : d.toNat = d.val.toNat := rfl
      unfold isWhitespace
      simp only [Bool.or_eq_false_iff, Bool.and_eq_false_iff, decide_eq_false_iff_not,
        beq_eq_false_iff_ne, Bool.not_eq_false', decide_eq_true_eq, ne_eq]
      omega
  obtain ⟨p, d, hp, hd⟩ := hlast
  obtain ⟨ws, hws, hall⟩ := trimEnd_append (linePart l c ++ rest)
  have hsplit : trimEnd (linePart l c ++ rest) ++ ws = p ++ [d] ++ (' ' :: rest) := by
    rw [← hws, positionText_eq, hp]; simp
  rw [hp]
  rcases List.append_eq_append_iff.1 hsplit with ⟨x, hx, hw⟩ | ⟨x, hx, -⟩
  · cases x with
    | nil => exact ⟨[], by simpa using hx.symm⟩
    | cons y ys =>
      exfalso
      have : d ∈ ws := by
        rw [hw]
        have hmem : d ∈ y :: ys := by
          have hl := congrArg List.getLast? hx
          rw [List.getLast?_append, List.getLast?_append] at hl
          simp only [List.getLast?_singleton, Option.some_or] at hl
          cases hg : (y :: ys).getLast? with
          | none => simp at hg
          | some z =>
            rw [hg] at hl
            simp only [Option.some_or, Option.some.injEq] at hl
            subst hl
            exact List.mem_of_getLast? hg
        exact List.mem_append_left _ hmem
      rw [hall d this] at hd
      cases hd
  · exact ⟨x, hx⟩

theorem unterminated_ok {text : List Char} {l c : Nat} {x : SyntaxErr} {rest : List Char}
    (h : x.message = linePart l c ++ rest) (hr : Renderable (utf8Len text) (x.offset, x.length)) :
    Ok (unterminatedError x) fun y => Renderable (utf8Len text) (y.offset, y.length) ∧
      ∃ r, y.message = positionText l c ++ r ∨ (y.message = "unterminated string literal".toList ∧
        ¬ ∃ p q, x.message = p ++ "token recognition error".toList ++ q) := by
  unfold unterminatedError
  split
  · rename_i hn
    refine .bind (P := fun p => p = []) (.pure rfl) fun p hp => ?_
    subst hp
    refine .pure ⟨hr, [], .inr ⟨rfl, ?_⟩⟩
    rintro ⟨p, q, hpq⟩
    obtain ⟨n, hn', -⟩ := findStr_append (pat := "token recognition error".toList) p q
    rw [← hpq, hn] at hn'
    cases hn'
  · rename_i pos hpos
    obtain ⟨p, q, hpq, rfl⟩ := findStr_some hpos
    have hpre : ∃ r1, p = linePart l c ++ r1 := by
      rw [h] at hpq
      rw [List.append_assoc] at hpq
      rcases List.append_eq_append_iff.1 hpq with ⟨a, ha, -⟩ | ⟨a, ha, hb⟩
      · exact ⟨a, ha⟩
      · cases a with
        | nil => exact ⟨[], by simpa using ha.symm⟩
        | cons y ys =>
          exfalso
          apply no_letter_t l c
          rw [ha]
          have : "token recognition error".toList = 't' :: "oken recognition error".toList := rfl
          rw [this] at hb
          simp only [List.cons_append, List.cons.injEq] at hb
          rw [← hb.1]
          simp
    obtain ⟨r1, rfl⟩ := hpre
    refine .bind (P := fun z => ∃ r, z = positionText l c ++ r) ?_ fun z hz => ?_
    · rw [hpq, List.append_assoc, sliceTo_append]
      obtain ⟨r, hr⟩ := trimEnd_position l c r1
      exact .pure ⟨r, hr⟩
    · obtain ⟨r, rfl⟩ := hz
      refine .pure ⟨hr, r ++ " unterminated string literal".toList, .inl ?_⟩
      have hne : (positionText l c ++ r).isEmpty = false := by
        unfold positionText
        simp [String.toList_append]
      simp only
      rw [hne]
      simp

/-- **C49.**  Whatever errors lexer and parser report for a text, reporting them does not panic.  If
the parser had none, the lexer's errors are warnings, one for each.  Otherwise the text is rejected,
with at most as many errors as the parser had.  Every report can be shown as a part of the text, and
its message begins with the position of an error.  Reports of parser errors begin at a
character of the text. -/
theorem C49_reported (text : List Char) (lexer parser : List RawError)
    (hl : ∀ e ∈ lexer, e.offending = none) (hp : ∀ e ∈ parser, TokenIn text e.offending) :
    ∃ o, syntaxOutcome text lexer parser = some o ∧
      match o with
      | .warnings ws => parser = [] ∧ ws.length = lexer.length ∧ ∀ w ∈ ws,
          Renderable (utf8Len text) (w.offset, w.length) ∧ ∃ e ∈ lexer, AtPosition e w.message
      | .failed main related => parser ≠ [] ∧ (main :: related).length ≤ parser.length ∧
          ∀ x ∈ main :: related, Renderable (utf8Len text) (x.offset, x.length) ∧
            ((Boundary text x.offset ∧ ∃ e ∈ parser, AtPosition e x.message) ∨
              ∃ e ∈ lexer, AtPosition e x.message) := by
  have hat : ∀ {e : RawError} {m rest : List Char}, m = linePart e.line e.column ++ rest →
      AtPosition e m := by
    intro e m rest h
    exact ⟨' ' :: rest, by rw [h, positionText_eq]; simp⟩
  unfold syntaxOutcome
  obtain ⟨xs, hxs, hlen, hx⟩ := listenAll_lexer (text := text) hl
  obtain ⟨ys, hys, hlen', hy⟩ := listenAll_parser hp
  rw [hxs, hys]
  simp only [Option.bind_eq_bind, Option.bind_some]
  split
  · rename_i he
    refine ⟨_, rfl, ?_, hlen, fun w hw => ?_⟩
    · rw [List.isEmpty_iff.1 he] at hlen'
      exact List.length_eq_zero_iff.1 hlen'.symm
    · obtain ⟨h1, e, he, rest, hr⟩ := hx w hw
      exact ⟨h1, e, he, hat hr⟩
  · rename_i he
    have hne : ys ≠ [] := by
      intro h
      rw [h] at he
      exact he rfl
    have hpne : parser ≠ [] := by
      rintro rfl
      exact hne (List.length_eq_zero_iff.1 hlen')
    have hppos : 0 < parser.length := List.length_pos_iff.2 hpne
    split
    · rename_i u hu
      have hmem := List.mem_of_find?_eq_some hu
      have hunt : isUnterminated u = true := List.find?_some hu
      obtain ⟨h1, e, he, rest, hr⟩ := hx u hmem
      obtain ⟨z, hz, hz1, r, hz2⟩ := unterminated_ok (text := text) hr h1
      rw [hz]
      refine ⟨_, rfl, hpne, hppos, fun x hx => ?_⟩
      rw [List.mem_singleton.1 hx]
      refine ⟨hz1, .inr ⟨e, he, ?_⟩⟩
      rcases hz2 with hz2 | ⟨-, hz2⟩
      · exact ⟨r, hz2⟩
      · exfalso
        apply hz2
        obtain ⟨p, q, hpq⟩ := containsStr_iff.1 hunt
        exact ⟨p, " at: '\"".toList ++ q, by rw [hpq]; simp⟩
    · obtain ⟨rs, hrs, h1, h2, h3⟩ := refine_ok hy
      rw [hrs]
      cases rs with
      | nil => exact absurd rfl (h1 hne)
      | cons main related =>
        refine ⟨_, rfl, hpne, by omega, fun x hx => ?_⟩
        obtain ⟨p, hp', hr⟩ := h3 x hx
        obtain ⟨e, he, rfl⟩ := List.mem_map.1 hp'
        obtain ⟨rest, hrest⟩ := hr.starts
        refine ⟨⟨?_, hr.fits⟩, .inl ⟨hr.place, e, he, hat hrest⟩⟩
        obtain ⟨a, b, hs, ha⟩ := hr.place
        simp only
        rw [← ha, hs, utf8Len_append]
        omega

/-- **C49, tokens.**  The tokens that the parser gets for a text are as C49 assumes. -/
theorem C49_tokens (file : String) (text : List Char) :
    ∀ t ∈ parserTokens file 0 (streamOf 0 (lex text)), ∃ s, t.span = some s ∧
      TokenIn text (some ⟨s.offset, (s.offset + s.length : Int) - 1⟩) := by
  intro t ht
  obtain ⟨⟨s, hs, -, p, q, hpq, h1, h2⟩, -⟩ := C36_token_positions file text t ht
  refine ⟨s, hs, ?_⟩
  rw [h1, h2]
  exact .word hpq

end Avdl.Props

import Verif.Spans
import Verif.Lemmas.Suggest
/-!
# Source spans are in range (C36)

Offsets count bytes.  A diagnostic with a span is rendered by the miette library (not modelled),
which accepts a span if it reaches at most one byte beyond the end of the text.
-/

namespace Avdl.Props
open Spec

/-- The span can be shown as part of a text of `len` bytes. -/
def Renderable (len : Nat) (span : Nat × Nat) : Prop := span.1 ≤ len ∧ span.1 + span.2 ≤ len + 1

/-- A token from a text of `len` bytes: it covers some of its bytes; or it is the end of the
text; or it is made up and has no position. -/
inductive TokenOf (len : Nat) : TokenPos → Prop
  | text {i j : Nat} : i < j → j ≤ len → TokenOf len ⟨i, (j : Int) - 1⟩
  | eof : TokenOf len ⟨len, (len : Int) - 1⟩
  | synthetic {i j : Int} : i < 0 → j < 0 → TokenOf len ⟨i, j⟩

/-- C36: the span of a token is the bytes it covers. -/
theorem C36_token {i j : Nat} (h : i < j) : tokenSpan ⟨i, (j : Int) - 1⟩ = (i, j - i) := by
  simp only [tokenSpan, spanFromOffsets]
  rw [if_pos (by omega)]
  simp only [Prod.mk.injEq]
  omega

/-- C36: the span of a construct reaches from the beginning of its first token to the end of its
last. -/
theorem C36_context {i i' j j' : Nat} (h : i < i') (h' : j < j') (hij : i' ≤ j ∨ (i = j ∧ i' = j')) :
    contextSpan ⟨i, (i' : Int) - 1⟩ ⟨j, (j' : Int) - 1⟩ = (i, j' - i) := by
  simp only [contextSpan, spanFromOffsets]
  rw [if_pos (by omega : ((j' : Int) - 1 ≥ (i : Int))), if_pos (by omega)]
  simp only [Prod.mk.injEq]
  omega

theorem spanFromOffsets_renderable {len : Nat} {start stop : Int} (h1 : start ≤ len)
    (h2 : stop < len) : Renderable len (spanFromOffsets start stop) := by
  simp only [spanFromOffsets]
  split
  · simp only [Renderable]; omega
  · split <;> simp only [Renderable] <;> omega

theorem tokenOf_start {len : Nat} {t : TokenPos} (h : TokenOf len t) :
    t.start < 0 ∨ (t.start ≤ len ∧ t.stop < len) := by
  cases h with
  | text h1 h2 => right; simp only; omega
  | eof => right; simp only; omega
  | synthetic h => left; exact h

theorem spanFromOffsets_neg {start stop : Int} (h : start < 0) :
    spanFromOffsets start stop = (0, 0) := by
  simp only [spanFromOffsets]
  rw [if_neg (by omega), if_neg (by omega)]

/-- C36: every span made from tokens of a text can be shown. -/
theorem C36_tokens_renderable {len : Nat} {t t' : TokenPos} (h : TokenOf len t)
    (h' : TokenOf len t') :
    Renderable len (tokenSpan t) ∧ Renderable len (contextSpan t t') ∧
      ∀ s, startSpan t = some s → Renderable len s ∧ 0 < s.2 := by
  have hz : Renderable len (0, 0) := by simp [Renderable]
  have ht : Renderable len (spanFromOffsets t.start t.stop) := by
    rcases tokenOf_start h with h1 | ⟨h1, h2⟩
    · rw [spanFromOffsets_neg h1]; exact hz
    · exact spanFromOffsets_renderable h1 h2
  refine ⟨ht, ?_, ?_⟩
  · simp only [contextSpan]
    rcases tokenOf_start h with h1 | ⟨h1, h2⟩
    · rw [spanFromOffsets_neg h1]; exact hz
    · by_cases hc : t'.stop ≥ t.start
      · rw [if_pos hc]
        by_cases h0 : t.start < 0
        · rw [spanFromOffsets_neg h0]; exact hz
        · cases h' with
          | text h3 h4 => exact spanFromOffsets_renderable h1 (by simp only; omega)
          | eof => exact spanFromOffsets_renderable h1 (by simp only; omega)
          | synthetic h3 h4 => simp only at hc; omega
      · rw [if_neg hc]; exact spanFromOffsets_renderable h1 h2
  · intro s hs
    simp only [startSpan] at hs
    split at hs
    · rename_i hpos
      simp only [Option.some.injEq] at hs
      subst hs
      exact ⟨ht, hpos⟩
    · cases hs

example : TokenOf 9 ⟨3, 6⟩ := .text (i := 3) (j := 7) (by decide) (by decide)
example : tokenSpan ⟨3, 6⟩ = (3, 4) := by decide
example : contextSpan ⟨3, 6⟩ ⟨8, 8⟩ = (3, 6) := by decide
example : tokenSpan ⟨9, 8⟩ = (9, 1) ∧ TokenOf 9 ⟨9, 8⟩ := ⟨by decide, .eof⟩

/-! ## Lines and columns -/

theorem splitNewlines_ne_nil (s : List Char) : splitNewlines s ≠ [] := by
  cases s with
  | nil => simp [splitNewlines]
  | cons c cs =>
    simp only [splitNewlines]
    split
    · simp
    · split <;> simp

/-- The bytes in all lines, with the line breaks between them. -/
def joinedLen : List (List Char) → Nat
  | [] => 0
  | [l] => utf8Len l
  | l :: ls => utf8Len l + 1 + joinedLen ls

theorem joinedLen_cons (l : List Char) {ls : List (List Char)} (h : ls ≠ []) :
    joinedLen (l :: ls) = utf8Len l + 1 + joinedLen ls := by
  cases ls with
  | nil => exact absurd rfl h
  | cons => rfl

theorem joinedLen_split (s : List Char) : joinedLen (splitNewlines s) = utf8Len s := by
  induction s with
  | nil => rfl
  | cons c cs ih =>
    have hne := splitNewlines_ne_nil cs
    simp only [splitNewlines, utf8Len]
    split
    · rename_i h
      subst h
      rw [joinedLen_cons _ hne, ih]
      rfl
    · cases h : splitNewlines cs with
      | nil => exact absurd h hne
      | cons l ls =>
        rw [h] at ih
        cases ls with
        | nil => simp only [joinedLen, utf8Len] at ih ⊢; omega
        | cons l' ls =>
          rw [joinedLen_cons _ (by simp)] at ih ⊢
          simp only [utf8Len]; omega

theorem lineColLoop_le (column : Nat) : ∀ (ls : List (List Char)) (n offset : Nat),
    lineColLoop column ls n offset ≤ offset + joinedLen ls := by
  intro ls
  induction ls with
  | nil => intro n offset; simp [lineColLoop]
  | cons l ls ih =>
    intro n offset
    cases n with
    | zero =>
      simp only [lineColLoop]
      cases ls with
      | nil => simp only [joinedLen]; omega
      | cons => rw [joinedLen_cons _ (by simp)]; omega
    | succ n =>
      simp only [lineColLoop]
      cases ls with
      | nil => simp [lineColLoop]
      | cons l' ls =>
        have := ih n (offset + (utf8Len l + 1))
        rw [joinedLen_cons _ (by simp)]
        omega

/-- C36: an offset computed from a line and a column lies within the text, for whatever line and
column, and the span of a syntax error can be shown. -/
theorem C36_line_column_in_range (source : List Char) (line column : Int) :
    lineColToByteOffset source line column ≤ utf8Len source ∧
      Renderable (utf8Len source) (syntaxErrorSpan none (some source) line column) := by
  have h : lineColToByteOffset source line column ≤ utf8Len source := by
    simp only [lineColToByteOffset]
    split
    · omega
    · have := lineColLoop_le column.toNat (splitNewlines source) (line - 1).toNat 0
      rw [joinedLen_split] at this
      omega
  exact ⟨h, by simp only [Renderable, syntaxErrorSpan]; omega⟩

/-- The character after `before` is in this line and column, lines counted from 1 and columns in
characters from 0; `left` is what is to its left in its line. -/
def At (before left : List Char) (line column : Nat) : Prop :=
  ∃ lines, before = lines ++ left ∧ '\n' ∉ left ∧ left.length = column ∧
    (lines = [] ∨ ∃ l, lines = l ++ ['\n']) ∧ line = lines.count '\n' + 1

theorem lineColLoop_first (column : Nat) : ∀ (l after : List Char), '\n' ∉ l →
    column ≤ utf8Len l → ∀ offset,
    lineColLoop column (splitNewlines (l ++ after)) 0 offset = offset + column := by
  intro l after hl hc offset
  have key : ∃ x ls, splitNewlines (l ++ after) = x :: ls ∧ utf8Len l ≤ utf8Len x := by
    clear hc
    induction l with
    | nil =>
      cases h : splitNewlines after with
      | nil => exact absurd h (splitNewlines_ne_nil _)
      | cons x ls => exact ⟨x, ls, by simpa using h, by simp [utf8Len]⟩
    | cons c l ih =>
      simp only [List.mem_cons, not_or] at hl
      obtain ⟨x, ls, h, hle⟩ := ih hl.2
      refine ⟨c :: x, ls, ?_, by simp only [utf8Len]; omega⟩
      simp only [List.cons_append, splitNewlines]
      rw [if_neg (fun e => hl.1 e.symm), h]
  obtain ⟨x, ls, h, hle⟩ := key
  rw [h]
  simp only [lineColLoop]
  omega

theorem lineColLoop_skip (column : Nat) : ∀ (lines rest : List Char),
    (lines = [] ∨ ∃ l, lines = l ++ ['\n']) → ∀ offset,
    lineColLoop column (splitNewlines (lines ++ rest)) (lines.count '\n') offset =
      lineColLoop column (splitNewlines rest) 0 (offset + utf8Len lines) := by
  intro lines
  induction lines with
  | nil => intro rest _ offset; simp [utf8Len]
  | cons c cs ih =>
    intro rest hend offset
    have hend' : cs = [] ∧ c = '\n' ∨ ∃ l, cs = l ++ ['\n'] := by
      rcases hend with h | ⟨l, h⟩
      · cases h
      · cases l with
        | nil => simp at h; exact .inl ⟨h.2, h.1⟩
        | cons d l => simp at h; exact .inr ⟨l, h.2⟩
    have hend'' : cs = [] ∨ ∃ l, cs = l ++ ['\n'] := hend'.imp And.left id
    have hne := splitNewlines_ne_nil (cs ++ rest)
    by_cases hc : c = '\n'
    · subst hc
      simp only [List.cons_append, splitNewlines, if_true, List.count_cons_self, lineColLoop]
      rw [ih rest hend'']
      congr 1
      simp only [utf8Len]
      have : Char.utf8Size '\n' = 1 := by decide
      omega
    · have hex : ∃ l, cs = l ++ ['\n'] := by
        rcases hend' with h | h
        · exact absurd h.2 hc
        · exact h
      have hpos : 0 < cs.count '\n' := by
        obtain ⟨l, rfl⟩ := hex
        simp
      have h := ih rest hend'' (offset + c.utf8Size)
      simp only [List.cons_append, splitNewlines, if_neg hc, List.count_cons, beq_iff_eq]
      cases hs : splitNewlines (cs ++ rest) with
      | nil => exact absurd hs hne
      | cons x ls =>
        rw [hs] at h
        obtain ⟨n, hn⟩ : ∃ n, cs.count '\n' = n + 1 := ⟨cs.count '\n' - 1, by omega⟩
        rw [hn] at h ⊢
        simp only [lineColLoop, utf8Len] at h ⊢
        have e1 : offset + (c.utf8Size + utf8Len cs) = offset + c.utf8Size + utf8Len cs := by omega
        have e2 : offset + (c.utf8Size + utf8Len x + 1) = offset + c.utf8Size + (utf8Len x + 1) := by
          omega
        rw [e1, e2, h]

/-- C36: the offset of the character in a line and column is the number of bytes before it, if
all characters before it in its line are in ASCII. -/
theorem C36_line_column_exact_partial {before left after : List Char} {line column : Nat}
    (h : At before left line column) (ha : Ascii left) :
    lineColToByteOffset (before ++ after) line column = utf8Len before := by
  obtain ⟨lines, rfl, hnl, rfl, hend, rfl⟩ := h
  have happ : ∀ x y : List Char, utf8Len (x ++ y) = utf8Len x + utf8Len y := by
    intro x y
    induction x with
    | nil => simp [utf8Len]
    | cons c x ih => simp only [List.cons_append, utf8Len, ih]; omega
  simp only [lineColToByteOffset]
  rw [if_neg (by omega)]
  have e : (((lines.count '\n' + 1 : Nat) : Int) - 1).toNat = lines.count '\n' := by omega
  rw [e, Int.toNat_natCast, List.append_assoc, lineColLoop_skip _ _ _ hend,
    lineColLoop_first _ _ _ hnl (by rw [utf8Len_ascii ha]; exact Nat.le_refl _), happ,
    utf8Len_ascii ha]
  omega

theorem splitNewlines_length (source : List Char) :
    (splitNewlines source).length = source.count '\n' + 1 := by
  induction source with
  | nil => rfl
  | cons c cs ih =>
    simp only [splitNewlines]
    split
    · next h =>
      rw [h, List.count_cons_self, List.length_cons, ih]
    · next h =>
      rw [List.count_cons_of_ne h, ← ih]
      cases hs : splitNewlines cs with
      | nil => exact absurd hs (splitNewlines_ne_nil _)
      | cons l ls => rfl

theorem lineColLoop_none (column : Nat) : ∀ (ls : List (List Char)) (n offset : Nat),
    ls.length ≤ n → lineColLoop column ls n offset = 0 := by
  intro ls
  induction ls with
  | nil => exact fun _ _ _ => rfl
  | cons l ls ih =>
    intro n offset h
    cases n with
    | zero => exact absurd h (Nat.not_succ_le_zero _)
    | succ n => exact ih n _ (Nat.le_of_succ_le_succ h)

/-- C36: a line that the text does not have and a negative column give the start of the text.
Lines are counted from 1. -/
theorem C36_out_of_range {source : List Char} {line column : Int}
    (h : line < 1 ∨ column < 0 ∨ source.count '\n' + 1 < line) :
    lineColToByteOffset source line column = 0 := by
  simp only [lineColToByteOffset]
  split
  · rfl
  · refine lineColLoop_none _ _ _ _ ?_
    rw [splitNewlines_length]
    omega

example : lineColToByteOffset "ab\ncd".toList 0 1 = 0 ∧ lineColToByteOffset "ab\ncd".toList 3 1 = 0 ∧
    lineColToByteOffset "ab\ncd".toList 1 1 = 1 := by decide

theorem splitNewlines_line {l : List Char} (hl : '\n' ∉ l) (rest : List Char)
    (hr : rest = [] ∨ ∃ r, rest = '\n' :: r) : ∃ ls, splitNewlines (l ++ rest) = l :: ls := by
  induction l with
  | nil =>
    rcases hr with rfl | ⟨r, rfl⟩
    · exact ⟨_, rfl⟩
    · exact ⟨splitNewlines r, by simp [splitNewlines]⟩
  | cons c l ih =>
    simp only [List.mem_cons, not_or] at hl
    obtain ⟨ls, h⟩ := ih hl.2
    refine ⟨ls, ?_⟩
    simp only [List.cons_append, splitNewlines]
    rw [if_neg (fun e => hl.1 e.symm), h]

/-- C36: a column behind the end of its line gives the end of the line. -/
theorem C36_past_line_end {lines l rest : List Char} {column : Nat}
    (hs : lines = [] ∨ ∃ x, lines = x ++ ['\n']) (hl : '\n' ∉ l)
    (hr : rest = [] ∨ ∃ r, rest = '\n' :: r) (hc : utf8Len l ≤ column) :
    lineColToByteOffset (lines ++ (l ++ rest)) (lines.count '\n' + 1 : Nat) column =
      utf8Len lines + utf8Len l := by
  simp only [lineColToByteOffset]
  rw [if_neg (by omega)]
  have e : (((lines.count '\n' + 1 : Nat) : Int) - 1).toNat = lines.count '\n' := by omega
  obtain ⟨ls, h⟩ := splitNewlines_line hl rest hr
  rw [e, Int.toNat_natCast, lineColLoop_skip _ _ _ hs, h]
  simp only [lineColLoop]
  omega

example : lineColToByteOffset "ab\ncd\ne".toList 2 9 = 5 := by decide

example : At "ab\ncd".toList "cd".toList 2 2 :=
  ⟨"ab\n".toList, by decide, by decide, by decide, .inr ⟨"ab".toList, by decide⟩,
    by decide⟩
example : lineColToByteOffset "ab\ncd#e".toList 2 2 = 5 := by decide

/-- C36 fails behind a character that is not in ASCII: the offset of `#` in `é#` should be 2, and
is computed as 1, in the middle of the first character. -/
theorem C36_fails_multibyte :
    At "é".toList "é".toList 1 1 ∧ utf8Len "é".toList = 2 ∧ lineColToByteOffset "é#".toList 1 1 = 1 :=
  ⟨⟨[], by decide, by decide, by decide, .inl rfl, by decide⟩, by decide, by decide⟩

end Avdl.Props

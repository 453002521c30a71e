import Verif.Lemmas.JsonStrip
/-!
# Lemmas: the reader of JSON accepts nothing but the grammar
-/

namespace Avdl.Lemmas

open Avdl.Spec

/-! ## Undoing the removal of comments -/

theorem strip_top_char {cs r' : List Char} {c : Char} (h : stripFrom .top cs = some (c :: r'))
    (hc : c ∉ jsonSpaces) (hq : c ≠ '"') : ∃ r, cs = c :: r ∧ stripFrom .top r = some r' := by
  cases cs with
  | nil => simp [stripFrom] at h
  | cons x r =>
    by_cases h1 : x = '"'
    · subst h1
      rw [stripFrom_cons (s' := .inString) (c' := '"') rfl] at h
      cases hs : stripFrom .inString r with
      | none => rw [hs] at h; cases h
      | some t => rw [hs] at h; cases h; exact absurd rfl hq
    · by_cases h2 : x = '/'
      · subst h2
        rw [stripFrom_cons (s' := .slash) (c' := ' ') rfl] at h
        cases hs : stripFrom .slash r with
        | none => rw [hs] at h; cases h
        | some t => rw [hs] at h; cases h; exact absurd (by decide) hc
      · rw [stripFrom_cons (s' := .top) (c' := x) (by simp [stripStep, h1, h2])] at h
        cases hs : stripFrom .top r with
        | none => rw [hs] at h; cases h
        | some t => rw [hs] at h; cases h; exact ⟨r, rfl, hs⟩

theorem strip_top_quote {cs r' : List Char} (h : stripFrom .top cs = some ('"' :: r')) :
    ∃ r, cs = '"' :: r ∧ stripFrom .inString r = some r' := by
  cases cs with
  | nil => simp [stripFrom] at h
  | cons x r =>
    by_cases h1 : x = '"'
    · subst h1
      rw [stripFrom_cons (s' := .inString) (c' := '"') rfl] at h
      cases hs : stripFrom .inString r with
      | none => rw [hs] at h; cases h
      | some t => rw [hs] at h; cases h; exact ⟨r, rfl, hs⟩
    · exfalso
      by_cases h2 : x = '/'
      · subst h2
        rw [stripFrom_cons (s' := .slash) (c' := ' ') rfl] at h
        cases hs : stripFrom .slash r with
        | none => rw [hs] at h; cases h
        | some t => rw [hs] at h; cases h
      · rw [stripFrom_cons (s' := .top) (c' := x) (by simp [stripStep, h1, h2])] at h
        cases hs : stripFrom .top r with
        | none => rw [hs] at h; cases h
        | some t => rw [hs] at h; cases h; exact h1 rfl

theorem strip_top_plain {pre : List Char} : ∀ {cs out' : List Char},
    (∀ c ∈ pre, c ∉ jsonSpaces ∧ c ≠ '"') → stripFrom .top cs = some (pre ++ out') →
    ∃ out, cs = pre ++ out ∧ stripFrom .top out = some out' := by
  induction pre with
  | nil => intro cs out' _ h; exact ⟨cs, rfl, h⟩
  | cons c pre ih =>
    intro cs out' hp h
    obtain ⟨r, rfl, h1⟩ := strip_top_char h (hp c (by simp)).1 (hp c (by simp)).2
    obtain ⟨out, rfl, h2⟩ := ih (fun x hx => hp x (by simp [hx])) h1
    exact ⟨out, rfl, h2⟩

theorem infix_pair_cons {a b x : Char} {l : List Char} :
    [a, b] <:+: x :: l ↔ (x = a ∧ ∃ t, l = b :: t) ∨ [a, b] <:+: l := by
  rw [List.infix_cons_iff]
  constructor
  · rintro (⟨t, ht⟩ | h)
    · simp only [List.cons_append, List.nil_append, List.cons.injEq] at ht
      exact .inl ⟨ht.1.symm, t, ht.2.symm⟩
    · exact .inr h
  · rintro (⟨rfl, t, rfl⟩ | h)
    · exact .inl ⟨t, rfl⟩
    · exact .inr h

/-- The inside of a block comment. -/
theorem strip_block_inv : ∀ {r : List Char} {s : StripState} {r' : List Char},
    s = .block ∨ s = .star → stripFrom s r = some r' →
    ∃ b sp out out', Spaces sp ∧ r' = sp ++ out' ∧ stripFrom .top out = some out' ∧
      ¬ ['*', '/'] <:+: b ∧ out.length < r.length ∧
      (if s = .star then '*' :: r else r) = b ++ '*' :: '/' :: out := by
  intro r
  induction r with
  | nil => intro s r' hs h; rcases hs with rfl | rfl <;> simp [stripFrom] at h
  | cons x r ih =>
    intro s r' hs h
    have step : ∃ s' t, stripStep s x = some (' ', s') ∧ stripFrom s' r = some t ∧ r' = ' ' :: t := by
      have : ∃ s', stripStep s x = some (' ', s') := by
        rcases hs with rfl | rfl
        · simp only [stripStep]; split <;> exact ⟨_, rfl⟩
        · simp only [stripStep]
          split
          · exact ⟨_, rfl⟩
          · split <;> exact ⟨_, rfl⟩
      obtain ⟨s', h1⟩ := this
      rw [stripFrom_cons h1] at h
      cases ht : stripFrom s' r with
      | none => rw [ht] at h; cases h
      | some t => rw [ht] at h; cases h; exact ⟨s', t, h1, ht, rfl⟩
    obtain ⟨s', t, h1, ht, rfl⟩ := step
    rcases hs with rfl | rfl
    · -- not after a star
      by_cases hx : x = '*'
      · subst hx
        have : s' = .star := by simp [stripStep] at h1; exact h1.symm
        subst this
        obtain ⟨b, sp, out, out', g1, rfl, g3, g4, g5, g6⟩ := ih (.inr rfl) ht
        exact ⟨b, ' ' :: sp, out, out', g1.cons (by decide), rfl, g3, g4, by simp; omega,
          by simpa using g6⟩
      · have : s' = .block := by simp [stripStep, hx] at h1; exact h1.symm
        subst this
        obtain ⟨b, sp, out, out', g1, rfl, g3, g4, g5, g6⟩ := ih (.inl rfl) ht
        refine ⟨x :: b, ' ' :: sp, out, out', g1.cons (by decide), rfl, g3, ?_, by simp; omega, ?_⟩
        · rw [infix_pair_cons]
          rintro (⟨h, -⟩ | h)
          · exact hx h
          · exact g4 h
        · simpa using g6
    · -- after a star
      by_cases hx : x = '/'
      · subst hx
        have : s' = .top := by simp [stripStep] at h1; exact h1.symm
        subst this
        exact ⟨[], [' '], r, t, by intro c hc; simp at hc; subst hc; decide, rfl, ht,
          by simp, by simp, by simp⟩
      · by_cases hx' : x = '*'
        · subst hx'
          have : s' = .star := by simp [stripStep] at h1; exact h1.symm
          subst this
          obtain ⟨b, sp, out, out', g1, rfl, g3, g4, g5, g6⟩ := ih (.inr rfl) ht
          simp only [if_true] at g6
          refine ⟨'*' :: b, ' ' :: sp, out, out', g1.cons (by decide), rfl, g3, ?_,
            by simp; omega, ?_⟩
          · rw [infix_pair_cons]
            rintro (⟨-, t, rfl⟩ | h)
            · simp at g6
            · exact g4 h
          · simp [g6]
        · have : s' = .block := by simp [stripStep, hx, hx'] at h1; exact h1.symm
          subst this
          obtain ⟨b, sp, out, out', g1, rfl, g3, g4, g5, g6⟩ := ih (.inl rfl) ht
          refine ⟨'*' :: x :: b, ' ' :: sp, out, out', g1.cons (by decide), rfl, g3, ?_,
            by simp; omega, ?_⟩
          · rw [infix_pair_cons, infix_pair_cons]
            rintro (⟨-, t, h⟩ | ⟨h, -⟩ | h)
            · cases h; exact hx rfl
            · exact hx' h
            · exact g4 h
          · simpa using g6

/-- The inside of a line comment. -/
theorem strip_line_inv : ∀ {r r' : List Char}, stripFrom .line r = some r' →
    (∃ b sp out out', Spaces sp ∧ r' = sp ++ out' ∧ stripFrom .top out = some out' ∧ '\n' ∉ b ∧
      r = b ++ '\n' :: out) ∨ ('\n' ∉ r ∧ Spaces r') := by
  intro r
  induction r with
  | nil =>
    intro r' h
    simp [stripFrom] at h
    subst h
    exact .inr ⟨by simp, by intro c hc; simp at hc⟩
  | cons x r ih =>
    intro r' h
    by_cases hx : x = '\n'
    · subst hx
      rw [stripFrom_cons (s' := .top) (c' := '\n') rfl] at h
      cases ht : stripFrom .top r with
      | none => rw [ht] at h; cases h
      | some t =>
        rw [ht] at h
        cases h
        exact .inl ⟨[], ['\n'], r, t, by intro c hc; simp at hc; subst hc; decide, rfl, ht,
          by simp, rfl⟩
    · rw [stripFrom_cons (s' := .line) (c' := ' ') (by simp [stripStep, hx])] at h
      cases ht : stripFrom .line r with
      | none => rw [ht] at h; cases h
      | some t =>
        rw [ht] at h
        cases h
        rcases ih ht with ⟨b, sp, out, out', g1, rfl, g3, g4, rfl⟩ | ⟨g1, g2⟩
        · exact .inl ⟨x :: b, ' ' :: sp, out, out', g1.cons (by decide), rfl, g3, by
            simp only [List.mem_cons, not_or]; exact ⟨fun h => hx h.symm, g4⟩, rfl⟩
        · exact .inr ⟨by simp only [List.mem_cons, not_or]; exact ⟨fun h => hx h.symm, g1⟩,
            g2.cons (by decide)⟩

/-- What is skipped as white space was white space and comments. -/
theorem strip_space_inv : ∀ (n : Nat) {cs cs' : List Char}, cs.length ≤ n →
    stripFrom .top cs = some cs' →
    (∃ w out, cs = w ++ out ∧ Blank w ∧ stripFrom .top out = some (skipSpace cs')) ∨
      (skipSpace cs' = [] ∧ BlankEnd cs) := by
  intro n
  induction n with
  | zero =>
    intro cs cs' hn h
    obtain rfl : cs = [] := by simpa using hn
    simp [stripFrom] at h
    subst h
    exact .inl ⟨[], [], rfl, .nil, rfl⟩
  | succ n ih =>
    intro cs cs' hn h
    cases cs with
    | nil =>
      simp [stripFrom] at h
      subst h
      exact .inl ⟨[], [], rfl, .nil, rfl⟩
    | cons x r =>
      have hn : r.length ≤ n := by simp at hn; exact hn
      have skip0 : ∀ {c : Char} {t : List Char}, cs' = c :: t → c ∉ jsonSpaces →
          (∃ w out, x :: r = w ++ out ∧ Blank w ∧ stripFrom .top out = some (skipSpace cs')) := by
        intro c t he hc
        refine ⟨[], x :: r, rfl, .nil, ?_⟩
        rw [h, he, skipSpace_cons hc]
      by_cases h1 : x = '"'
      · subst h1
        have h' := h
        rw [stripFrom_cons (s' := .inString) (c' := '"') rfl] at h'
        cases ht : stripFrom .inString r with
        | none => rw [ht] at h'; cases h'
        | some t => rw [ht] at h'; injection h' with h'; exact .inl (skip0 h'.symm (by decide))
      · by_cases h2 : x = '/'
        · subst h2
          rw [stripFrom_cons (s' := .slash) (c' := ' ') rfl] at h
          cases ht : stripFrom .slash r with
          | none => rw [ht] at h; cases h
          | some t =>
            rw [ht] at h
            cases h
            cases r with
            | nil => simp [stripFrom] at ht
            | cons y r =>
              have hn : r.length < n := by simp at hn; omega
              by_cases hy : y = '*'
              · subst hy
                rw [stripFrom_cons (s' := .block) (c' := ' ') rfl] at ht
                cases hb : stripFrom .block r with
                | none => rw [hb] at ht; cases ht
                | some u =>
                  rw [hb] at ht
                  cases ht
                  obtain ⟨b, sp, out, out', g1, rfl, g3, g4, g5, g6⟩ := strip_block_inv (.inl rfl) hb
                  simp only [reduceCtorEq, if_false] at g6
                  have hsk : skipSpace (' ' :: ' ' :: (sp ++ out')) = skipSpace out' :=
                    skipSpace_of (w := ' ' :: ' ' :: sp)
                      ((g1.cons (by decide)).cons (by decide))
                  rw [hsk]
                  rcases ih (by omega) g3 with ⟨w, o, rfl, k2, k3⟩ | ⟨k1, k2⟩
                  · refine .inl ⟨'/' :: '*' :: b ++ '*' :: '/' :: w, o, ?_, .block g4 k2, k3⟩
                    simp [g6]
                  · refine .inr ⟨k1, ?_⟩
                    rcases k2 with k2 | ⟨w', b', k3, k4, rfl⟩
                    · left
                      rw [g6]
                      exact .block g4 k2
                    · right
                      refine ⟨'/' :: '*' :: b ++ '*' :: '/' :: w', b', .block g4 k3, k4, ?_⟩
                      simp [g6]
              · by_cases hy' : y = '/'
                · subst hy'
                  rw [stripFrom_cons (s' := .line) (c' := ' ') rfl] at ht
                  cases hb : stripFrom .line r with
                  | none => rw [hb] at ht; cases ht
                  | some u =>
                    rw [hb] at ht
                    cases ht
                    rcases strip_line_inv hb with ⟨b, sp, out, out', g1, rfl, g3, g4, rfl⟩ | ⟨g1, g2⟩
                    · have hsk : skipSpace (' ' :: ' ' :: (sp ++ out')) = skipSpace out' :=
                        skipSpace_of (w := ' ' :: ' ' :: sp)
                          ((g1.cons (by decide)).cons (by decide))
                      rw [hsk]
                      rcases ih (by simp at hn; omega) g3 with ⟨w, o, rfl, k2, k3⟩ | ⟨k1, k2⟩
                      · refine .inl ⟨'/' :: '/' :: b ++ '\n' :: w, o, ?_, .line g4 k2, k3⟩
                        simp
                      · refine .inr ⟨k1, ?_⟩
                        rcases k2 with k2 | ⟨w', b', k3, k4, rfl⟩
                        · left
                          exact .line g4 k2
                        · right
                          refine ⟨'/' :: '/' :: b ++ '\n' :: w', b', .line g4 k3, k4, ?_⟩
                          simp
                    · refine .inr ⟨skipSpace_all ((g2.cons (by decide)).cons (by decide)), ?_⟩
                      exact .inr ⟨[], r, .nil, g1, rfl⟩
                · simp [stripFrom, stripStep, hy, hy'] at ht
        · have h' := h
          rw [stripFrom_cons (s' := .top) (c' := x) (by simp [stripStep, h1, h2])] at h'
          cases ht : stripFrom .top r with
          | none => rw [ht] at h'; cases h'
          | some t =>
            rw [ht] at h'
            injection h' with h'
            by_cases hx : x ∈ jsonSpaces
            · subst h'
              have hsk : skipSpace (x :: t) = skipSpace t := skipSpace_of (w := [x])
                (by intro c hc; simp at hc; subst hc; exact hx)
              rw [hsk]
              rcases ih hn ht with ⟨w, o, rfl, k2, k3⟩ | ⟨k1, k2⟩
              · exact .inl ⟨x :: w, o, rfl, .space hx k2, k3⟩
              · refine .inr ⟨k1, ?_⟩
                rcases k2 with k2 | ⟨w', b', k3, k4, rfl⟩
                · exact .inl (.space hx k2)
                · exact .inr ⟨x :: w', b', .space hx k3, k4, rfl⟩
            · exact .inl (skip0 h'.symm hx)

/-- What is skipped before the next character was white space and comments. -/
theorem strip_space_to {cs cs' r' : List Char} {c : Char} (h : stripFrom .top cs = some cs')
    (hs : skipSpace cs' = c :: r') :
    ∃ w out, cs = w ++ out ∧ Blank w ∧ stripFrom .top out = some (c :: r') := by
  rcases strip_space_inv cs.length (Nat.le_refl _) h with h1 | ⟨h1, -⟩
  · rw [hs] at h1; exact h1
  · rw [hs] at h1; cases h1

theorem skipSpace_head {cs r : List Char} {c : Char} (h : skipSpace cs = c :: r) :
    c ∉ jsonSpaces := by
  induction cs with
  | nil => cases h
  | cons x cs ih =>
    unfold skipSpace at h ih
    rw [List.dropWhile_cons] at h
    split at h
    · exact ih h
    · rename_i hx
      cases h
      exact fun hc => hx ((isJsonSpace_iff _).2 hc)

/-! ## Strings -/

theorem strip_string_char {r r' : List Char} {c : Char}
    (h : stripFrom .inString r = some (c :: r')) :
    ∃ r1, r = c :: r1 ∧ stripFrom (if c = '"' then .top else if c = '\\' then .escape
      else .inString) r1 = some r' := by
  cases r with
  | nil => simp [stripFrom] at h
  | cons x r =>
    have step : stripStep .inString x = some (x, if x = '"' then .top else if x = '\\' then .escape
        else .inString) := by
      simp only [stripStep]
      split
      · rfl
      · split <;> rfl
    rw [stripFrom_cons step] at h
    cases ht : stripFrom (if x = '"' then .top else if x = '\\' then .escape else .inString) r with
    | none => rw [ht] at h; cases h
    | some t => rw [ht] at h; cases h; exact ⟨r, rfl, ht⟩

theorem strip_escape_char {r r' : List Char} {c : Char}
    (h : stripFrom .escape r = some (c :: r')) :
    ∃ r1, r = c :: r1 ∧ stripFrom .inString r1 = some r' := by
  cases r with
  | nil => simp [stripFrom] at h
  | cons x r =>
    rw [stripFrom_cons (s' := .inString) (c' := x) rfl] at h
    cases ht : stripFrom .inString r with
    | none => rw [ht] at h; cases h
    | some t => rw [ht] at h; cases h; exact ⟨r, rfl, ht⟩

theorem strip_string_plain {pre : List Char} : ∀ {r out' : List Char},
    (∀ c ∈ pre, c ≠ '"' ∧ c ≠ '\\') → stripFrom .inString r = some (pre ++ out') →
    ∃ out, r = pre ++ out ∧ stripFrom .inString out = some out' := by
  induction pre with
  | nil => intro r out' _ h; exact ⟨r, rfl, h⟩
  | cons c pre ih =>
    intro r out' hp h
    obtain ⟨r1, rfl, h1⟩ := strip_string_char h
    rw [if_neg (hp c (by simp)).1, if_neg (hp c (by simp)).2] at h1
    obtain ⟨out, rfl, h2⟩ := ih (fun x hx => hp x (by simp [hx])) h1
    exact ⟨out, rfl, h2⟩

theorem strip_hex {r cs' out' : List Char} {v : Nat} (h : stripFrom .inString r = some cs')
    (hx : readHex4 cs' = some (v, out')) :
    ∃ hex out, hex.length = 4 ∧ Digits 16 hex v ∧ r = hex ++ out ∧
      stripFrom .inString out = some out' := by
  obtain ⟨hex, h4, hd, rfl⟩ := readHex4_inv hx
  obtain ⟨out, rfl, h2⟩ := strip_string_plain
    (fun c hc => let g := digit_chars (by omega) hd c hc; ⟨g.1, g.2.2⟩) h
  exact ⟨hex, out, h4, hd, rfl, h2⟩

theorem not_high {v : Nat} (h : ¬ isHighSurrogate v = true) : ¬ High v :=
  fun h' => h ((isHigh_iff v).2 h')

theorem not_low {v : Nat} (h : ¬ isLowSurrogate v = true) : ¬ Low v :=
  fun h' => h ((isLow_iff v).2 h')

/-- A string that is read is a string of the grammar. -/
theorem readString_sound : ∀ (n : Nat) {r r' s out' : List Char},
    stripFrom .inString r = some r' → readString n r' = some (s, out') →
    ∃ e out, r = e ++ '"' :: out ∧ JsonChars e s ∧ stripFrom .top out = some out' := by
  intro n
  induction n with
  | zero => intro r r' s out' _ h; cases h
  | succ n ih =>
    intro r r' s out' hs h
    cases r' with
    | nil => cases h
    | cons c cs =>
      obtain ⟨r1, rfl, h1⟩ := strip_string_char hs
      simp only [readString] at h
      split at h
      · rename_i hc
        subst hc
        cases h
        exact ⟨[], r1, rfl, .nil, h1⟩
      · rename_i hq
        rw [if_neg hq] at h1
        split at h
        · rename_i hc
          subst hc
          simp only [if_true] at h1
          split at h
          · cases h
          · rename_i d rest hesc
            cases hrs : readString n rest with
            | none => rw [hrs] at h; cases h
            | some t =>
              obtain ⟨s1, o1⟩ := t
              rw [hrs] at h
              cases h
              cases cs with
              | nil => cases hesc
              | cons k cs =>
                obtain ⟨r2, rfl, h2⟩ := strip_escape_char h1
                simp only [readEscape] at hesc
                split at hesc
                · rename_i hk
                  subst hk
                  split at hesc
                  · cases hesc
                  · rename_i v rest1 hx
                    obtain ⟨hex, o, h4, hd, rfl, h3⟩ := strip_hex h2 hx
                    have hcu : CodeUnit ('\\' :: 'u' :: hex) v := ⟨hex, h4, hd, rfl⟩
                    split at hesc
                    · cases hesc
                    · rename_i hlow
                      split at hesc
                      · rename_i hhigh
                        unfold readLow at hesc
                        split at hesc
                        · rename_i cs2
                          split at hesc
                          · cases hesc
                          · rename_i l rest2 hx2
                            split at hesc
                            · rename_i hl
                              injection hesc with hesc
                              obtain ⟨r3, rfl, h5⟩ := strip_string_char h3
                              rw [if_neg (by decide), if_pos rfl] at h5
                              obtain ⟨r4, rfl, h6⟩ := strip_escape_char h5
                              obtain ⟨hex2, o2, h42, hd2, rfl, h7⟩ := strip_hex h6 hx2
                              have hcu2 : CodeUnit ('\\' :: 'u' :: hex2) l := ⟨hex2, h42, hd2, rfl⟩
                              rw [Prod.mk.injEq] at hesc
                              rw [← hesc.2] at hrs
                              obtain ⟨e, out, rfl, h8, h9⟩ := ih h7 hrs
                              rw [← hesc.1]
                              refine ⟨_, out, ?_, .pair hcu ((isHigh_iff v).1 hhigh) hcu2
                                ((isLow_iff l).1 hl) h8, h9⟩
                              simp
                            · cases hesc
                        · cases hesc
                      · rename_i hhigh
                        cases hesc
                        obtain ⟨e, out, rfl, h8, h9⟩ := ih h3 hrs
                        refine ⟨_, out, ?_, .unicode hcu (not_high hhigh) (not_low hlow) h8, h9⟩
                        simp
                · cases hse : simpleEscape k with
                  | none => rw [hse] at hesc; cases hesc
                  | some d' =>
                    rw [hse] at hesc
                    cases hesc
                    obtain ⟨e, out, rfl, h8, h9⟩ := ih h2 hrs
                    exact ⟨'\\' :: k :: e, out, rfl, .escape ((simpleEscape_iff k _).1 hse) h8, h9⟩
        · rename_i hb
          split at h
          · cases h
          · rename_i hctl
            rw [if_neg hb] at h1
            cases hrs : readString n cs with
            | none => rw [hrs] at h; cases h
            | some t =>
              obtain ⟨s1, o1⟩ := t
              rw [hrs] at h
              cases h
              obtain ⟨e, out, rfl, h8, h9⟩ := ih h1 hrs
              exact ⟨c :: e, out, rfl, .plain hq hb (Nat.not_lt.1 hctl) h8, h9⟩

/-! ## Numbers -/

theorem takeWhile_digits (cs : List Char) :
    ∀ c ∈ cs.takeWhile isJsonDigit, isJsonDigit c = true := by
  induction cs with
  | nil => intro c hc; simp at hc
  | cons x cs ih =>
    intro c hc
    rw [List.takeWhile_cons] at hc
    split at hc
    · rename_i hx
      rcases List.mem_cons.1 hc with rfl | h
      · exact hx
      · exact ih c h
    · simp at hc

theorem readDigits_inv {cs ds rest : List Char} (h : readDigits cs = some (ds, rest)) :
    SomeDigits ds ∧ cs = ds ++ rest := by
  simp only [readDigits] at h
  split at h
  · cases h
  · rename_i hne
    cases h
    exact ⟨⟨hne, digits_iff_all.2 (takeWhile_digits cs)⟩, List.takeWhile_append_dropWhile.symm⟩

theorem readIntPart_inv {cs ds rest : List Char} (h : readIntPart cs = some (ds, rest)) :
    IntPart ds ∧ cs = ds ++ rest := by
  simp only [readIntPart] at h
  split at h
  · cases h
  · rename_i hne
    split at h
    · cases h
    · rename_i hz
      cases h
      refine ⟨⟨⟨hne, digits_iff_all.2 (takeWhile_digits cs)⟩, fun h0 => ?_⟩,
        List.takeWhile_append_dropWhile.symm⟩
      exact Classical.byContradiction fun h1 => hz ⟨h0, h1⟩

theorem readFraction_inv {cs frac rest : List Char} (h : readFraction cs = some (frac, rest)) :
    Fraction frac ∧ cs = frac ++ rest := by
  unfold readFraction at h
  split at h
  · rename_i cs
    cases hr : readDigits cs with
    | none => rw [hr] at h; cases h
    | some t =>
      obtain ⟨ds, r⟩ := t
      rw [hr] at h
      cases h
      obtain ⟨h1, rfl⟩ := readDigits_inv hr
      exact ⟨.inr ⟨ds, h1, rfl⟩, rfl⟩
  · cases h; exact ⟨.inl rfl, rfl⟩

theorem readSign_inv (cs : List Char) : ((readSign cs).1 = [] ∨ (readSign cs).1 = ['+'] ∨
    (readSign cs).1 = ['-']) ∧ cs = (readSign cs).1 ++ (readSign cs).2 := by
  cases cs with
  | nil => exact ⟨.inl rfl, rfl⟩
  | cons c cs =>
    simp only [readSign]
    split
    · rename_i h
      rcases h with rfl | rfl
      · exact ⟨.inr (.inl rfl), rfl⟩
      · exact ⟨.inr (.inr rfl), rfl⟩
    · exact ⟨.inl rfl, rfl⟩

theorem readExponent_inv {cs exp rest : List Char} (h : readExponent cs = some (exp, rest)) :
    Exponent exp ∧ cs = exp ++ rest := by
  cases cs with
  | nil => cases h; exact ⟨.inl rfl, rfl⟩
  | cons c cs =>
    simp only [readExponent] at h
    split at h
    · rename_i hc
      cases hr : readDigits (readSign cs).2 with
      | none => rw [hr] at h; cases h
      | some t =>
        obtain ⟨ds, r⟩ := t
        rw [hr] at h
        cases h
        obtain ⟨h1, h2⟩ := readDigits_inv hr
        obtain ⟨h3, h4⟩ := readSign_inv cs
        refine ⟨.inr ⟨c, _, ds, hc, h3, h1, rfl⟩, ?_⟩
        rw [h2] at h4
        simp only [List.cons_append, List.append_assoc, ← h4]
    · cases h; exact ⟨.inl rfl, rfl⟩

theorem numberValue_inv [JsonFloats] {neg : Bool} {ds frac exp : List Char} {n : JNum}
    (h1 : IntPart ds) (h2 : Fraction frac) (h3 : Exponent exp)
    (h : numberValue neg ds (frac ++ exp) = some n) :
    JsonNumber ((if neg then ['-'] else []) ++ ds ++ frac ++ exp) n := by
  obtain ⟨v, hv⟩ := h1.1.2
  have flt : (frac ++ exp = [] → (neg = false → 2 ^ 64 ≤ v) ∧ (neg = true → v = 0 ∨ 2 ^ 63 < v)) →
      (JsonFloats.read ((if neg then ['-'] else []) ++ ds ++ (frac ++ exp))).map
        (fun f => JNum.float f.1 f.2.1 f.2.2) = some n →
      JsonNumber ((if neg then ['-'] else []) ++ ds ++ frac ++ exp) n := by
    intro hc hf
    cases hr : JsonFloats.read ((if neg then ['-'] else []) ++ ds ++ (frac ++ exp)) with
    | none => rw [hr] at hf; cases hf
    | some f =>
      rw [hr] at hf
      cases hf
      refine .float ?_ h1 h2 h3 (fun he => ?_) (by simpa using hr)
      · cases neg
        · exact .inl rfl
        · exact .inr rfl
      · obtain ⟨c1, c2⟩ := hc he
        constructor
        · intro v' hv' hs
          rw [digits_unique (by omega) hv' hv]
          cases neg with
          | false => exact c1 rfl
          | true => cases hs
        · intro v' hv' hs
          rw [digits_unique (by omega) hv' hv]
          cases neg with
          | false => cases hs
          | true => exact c2 rfl
  unfold numberValue at h
  simp only at h
  split at h
  · rename_i m ht hm
    rw [digitsFrom_of (by omega) hv] at hm
    cases hm
    obtain ⟨rfl, rfl⟩ := List.append_eq_nil_iff.1 ht
    cases neg with
    | false =>
      simp only [Bool.false_eq_true, if_false] at h
      split at h
      · rename_i hlt
        cases h
        simpa using JsonNumber.natural h1 hv hlt
      · rename_i hlt
        exact flt (fun _ => ⟨fun _ => Nat.not_lt.1 hlt, fun h => by cases h⟩) (by simpa using h)
    | true =>
      simp only [if_true] at h
      split at h
      · rename_i hz
        exact flt (fun _ => ⟨fun h => (by cases h), fun _ => .inl hz⟩) (by simpa using h)
      · rename_i hz
        split at h
        · rename_i hle
          cases h
          simpa using JsonNumber.negative h1 hv (Nat.pos_of_ne_zero hz) hle
        · rename_i hle
          exact flt (fun _ => ⟨fun h => (by cases h), fun _ => .inr (Nat.not_le.1 hle)⟩)
            (by simpa using h)
  · rename_i hno
    refine flt (fun he => ?_) h
    exact absurd (digitsFrom_of (by omega) hv) (hno v he)

theorem readUnsigned_inv [JsonFloats] {neg : Bool} {cs rest : List Char} {n : JNum}
    (h : readUnsigned neg cs = some (n, rest)) :
    ∃ pre, cs = pre ++ rest ∧ JsonNumber ((if neg then ['-'] else []) ++ pre) n := by
  unfold readUnsigned at h
  split at h
  · cases h
  · rename_i ds cs1 hi
    obtain ⟨h1, rfl⟩ := readIntPart_inv hi
    split at h
    · cases h
    · rename_i frac cs2 hf
      obtain ⟨h2, rfl⟩ := readFraction_inv hf
      split at h
      · cases h
      · rename_i exp cs3 he
        obtain ⟨h3, rfl⟩ := readExponent_inv he
        cases hv : numberValue neg ds (frac ++ exp) with
        | none => rw [hv] at h; cases h
        | some m =>
          rw [hv] at h
          cases h
          refine ⟨ds ++ frac ++ exp, by simp, ?_⟩
          have := numberValue_inv h1 h2 h3 hv
          simpa using this

/-- A number that is read is a number of the grammar. -/
theorem readNumber_inv [JsonFloats] {cs rest : List Char} {n : JNum}
    (h : readNumber cs = some (n, rest)) : ∃ pre, cs = pre ++ rest ∧ JsonNumber pre n := by
  unfold readNumber at h
  split at h
  · obtain ⟨pre, rfl, hp⟩ := readUnsigned_inv h
    exact ⟨'-' :: pre, rfl, hp⟩
  · obtain ⟨pre, rfl, hp⟩ := readUnsigned_inv h
    exact ⟨pre, rfl, hp⟩

theorem number_chars [JsonFloats] {cs : List Char} {n : JNum} (h : JsonNumber cs n) :
    ∀ c ∈ cs, c ∉ jsonSpaces ∧ c ≠ '"' := by
  have dg : ∀ {ds : List Char}, SomeDigits ds → ∀ c ∈ ds, c ∉ jsonSpaces ∧ c ≠ '"' := by
    intro ds hd c hc
    have := digit_cases (digits_iff_all.1 hd.2 c hc)
    exact ⟨this.1, this.2.2.2.2.1⟩
  have app : ∀ {a b : List Char}, (∀ c ∈ a, c ∉ jsonSpaces ∧ c ≠ '"') →
      (∀ c ∈ b, c ∉ jsonSpaces ∧ c ≠ '"') → ∀ c ∈ a ++ b, c ∉ jsonSpaces ∧ c ≠ '"' := by
    intro a b ha hb c hc
    rcases List.mem_append.1 hc with h | h
    · exact ha c h
    · exact hb c h
  have minus : ∀ c ∈ ['-'], c ∉ jsonSpaces ∧ c ≠ '"' := by decide
  have none_ : ∀ c ∈ ([] : List Char), c ∉ jsonSpaces ∧ c ≠ '"' := by decide
  cases h with
  | natural h1 _ _ => exact dg h1.1
  | negative h1 _ _ _ => exact app minus (dg h1.1)
  | @float sign ds frac exp f h1 h2 h3 h4 h5 h6 =>
    refine app (app (app ?_ (dg h2.1)) ?_) ?_
    · rcases h1 with rfl | rfl
      · exact none_
      · exact minus
    · rcases h3 with rfl | ⟨ds, hd, rfl⟩
      · exact none_
      · exact app (a := ['.']) (by decide) (dg hd)
    · rcases h4 with rfl | ⟨e, sign, ds, he, hs, hd, rfl⟩
      · exact none_
      · refine app (a := e :: sign) ?_ (dg hd)
        refine app (a := [e]) ?_ ?_
        · rcases he with rfl | rfl <;> decide
        · rcases hs with rfl | rfl | rfl <;> decide

/-! ## Values -/

theorem dropWord_inv : ∀ {w cs rest : List Char}, dropWord w cs = some rest → cs = w ++ rest
  | [], _, _, h => by cases h; rfl
  | _ :: _, [], _, h => by cases h
  | w :: ws, c :: cs, rest, h => by
      simp only [dropWord] at h
      split at h
      · rename_i hc
        rw [hc, dropWord_inv h]
        rfl
      · cases h

theorem word_sound {first : Char} {word r' out' : List Char} {cs : List Char}
    (hs : stripFrom .top cs = some (first :: r')) (hw : dropWord word r' = some out')
    (hp : ∀ c ∈ first :: word, c ∉ jsonSpaces ∧ c ≠ '"') :
    ∃ out, cs = first :: word ++ out ∧ stripFrom .top out = some out' := by
  rw [dropWord_inv hw] at hs
  exact strip_top_plain (pre := first :: word) hp hs

theorem readKey_sound {n : Nat} {cs cs' out' : List Char} {k : String}
    (hs : stripFrom .top cs = some cs') (h : readKey n cs' = some (k, out')) :
    ∃ ks w out, cs = ks ++ w ++ ':' :: out ∧ JsonString ks k ∧ Blank w ∧
      stripFrom .top out = some out' := by
  unfold readKey at h
  split at h
  · rename_i r'
    split at h
    · cases h
    · rename_i s rest hr
      split at h
      · rename_i rest' hsk
        cases h
        obtain ⟨r, rfl, h1⟩ := strip_top_quote hs
        obtain ⟨e, o, rfl, h2, h3⟩ := readString_sound _ h1 hr
        obtain ⟨w, o2, rfl, h4, h5⟩ := strip_space_to h3 hsk
        obtain ⟨o3, rfl, h6⟩ := strip_top_char h5 (by decide) (by decide)
        exact ⟨'"' :: e ++ ['"'], w, o3, by simp, ⟨e, rfl, by simpa using h2⟩, h4, h6⟩
      · cases h
  · cases h

mutual
/-- A value that is read is a value of the grammar with comments. -/
theorem readValue_sound [JsonFloats] : ∀ (n : Nat) {d : Nat} {cs cs' out' : List Char} {j : Json},
    stripFrom .top cs = some cs' → readValue n d cs' = some (j, out') →
    ∃ w pre out, cs = w ++ pre ++ out ∧ Blank w ∧ JsonVal Blank d pre j ∧
      stripFrom .top out = some out'
  | 0, _, _, _, _, _, _, h => by simp only [readValue] at h; cases h
  | n + 1, d, cs, cs', out', j, hs, h => by
      simp only [readValue] at h
      split at h
      · cases h
      · rename_i c rest hsk
        obtain ⟨w, o, rfl, hw, h1⟩ := strip_space_to hs hsk
        have hsp := skipSpace_head hsk
        split at h
        · rename_i hc
          subst hc
          cases hd : dropWord ['u', 'l', 'l'] rest with
          | none => rw [hd] at h; cases h
          | some r =>
            rw [hd] at h
            cases h
            obtain ⟨out, rfl, h2⟩ := word_sound h1 hd (by decide)
            exact ⟨w, _, out, (List.append_assoc ..).symm, hw, .null, h2⟩
        · split at h
          · rename_i hc
            subst hc
            cases hd : dropWord ['r', 'u', 'e'] rest with
            | none => rw [hd] at h; cases h
            | some r =>
              rw [hd] at h
              cases h
              obtain ⟨out, rfl, h2⟩ := word_sound h1 hd (by decide)
              exact ⟨w, _, out, (List.append_assoc ..).symm, hw, .true, h2⟩
          · split at h
            · rename_i hc
              subst hc
              cases hd : dropWord ['a', 'l', 's', 'e'] rest with
              | none => rw [hd] at h; cases h
              | some r =>
                rw [hd] at h
                cases h
                obtain ⟨out, rfl, h2⟩ := word_sound h1 hd (by decide)
                exact ⟨w, _, out, (List.append_assoc ..).symm, hw, .false, h2⟩
            · split at h
              · rename_i hc
                subst hc
                cases hr : readString (n + 1) rest with
                | none => rw [hr] at h; cases h
                | some t =>
                  obtain ⟨s, o1⟩ := t
                  rw [hr] at h
                  cases h
                  obtain ⟨r, rfl, h2⟩ := strip_top_quote h1
                  obtain ⟨e, out, rfl, h3, h4⟩ := readString_sound _ h2 hr
                  exact ⟨w, '"' :: e ++ ['"'], out, by simp, hw, .str ⟨e, rfl, by simpa using h3⟩,
                    h4⟩
              · rename_i hq
                split at h
                · rename_i hc
                  subst hc
                  obtain ⟨r, rfl, h2⟩ := strip_top_char h1 hsp hq
                  split at h
                  · cases h
                  · rename_i hd0
                    obtain ⟨d, rfl⟩ := Nat.exists_eq_succ_of_ne_zero hd0
                    split at h
                    · rename_i rest' hsk2
                      cases h
                      obtain ⟨w2, o2, rfl, h3, h4⟩ := strip_space_to h2 hsk2
                      obtain ⟨out, rfl, h5⟩ := strip_top_char h4 (by decide) (by decide)
                      exact ⟨w, '[' :: w2 ++ [']'], out, by simp, hw, .arr0 h3, h5⟩
                    · cases hr : readElements n (d + 1 - 1) rest with
                      | none => rw [hr] at h; cases h
                      | some t =>
                        obtain ⟨l, o1⟩ := t
                        rw [hr] at h
                        cases h
                        obtain ⟨pre, out, rfl, h3, h4⟩ := readElements_sound n h2 hr
                        exact ⟨w, '[' :: pre ++ [']'], out, by simp, hw, .arr h3, h4⟩
                · rename_i hb
                  split at h
                  · rename_i hc
                    subst hc
                    obtain ⟨r, rfl, h2⟩ := strip_top_char h1 hsp hq
                    split at h
                    · cases h
                    · rename_i hd0
                      obtain ⟨d, rfl⟩ := Nat.exists_eq_succ_of_ne_zero hd0
                      split at h
                      · rename_i rest' hsk2
                        cases h
                        obtain ⟨w2, o2, rfl, h3, h4⟩ := strip_space_to h2 hsk2
                        obtain ⟨out, rfl, h5⟩ := strip_top_char h4 (by decide) (by decide)
                        exact ⟨w, '{' :: w2 ++ ['}'], out, by simp, hw, .obj0 h3, h5⟩
                      · cases hr : readMembers n (d + 1 - 1) rest with
                        | none => rw [hr] at h; cases h
                        | some t =>
                          obtain ⟨l, o1⟩ := t
                          rw [hr] at h
                          cases h
                          obtain ⟨pre, out, rfl, h3, h4⟩ := readMembers_sound n h2 hr
                          exact ⟨w, '{' :: pre ++ ['}'], out, by simp, hw,
                            .obj h3 (objectOf_insertAll l), h4⟩
                  · cases hr : readNumber (c :: rest) with
                    | none => rw [hr] at h; cases h
                    | some t =>
                      obtain ⟨m, o1⟩ := t
                      rw [hr] at h
                      cases h
                      obtain ⟨pre, he, hp⟩ := readNumber_inv hr
                      rw [he] at h1
                      obtain ⟨out, rfl, h2⟩ := strip_top_plain (number_chars hp) h1
                      exact ⟨w, pre, out, (List.append_assoc ..).symm, hw, .num hp, h2⟩
/-- The same for the elements of an array. -/
theorem readElements_sound [JsonFloats] : ∀ (n : Nat) {d : Nat} {cs cs' out' : List Char}
    {l : List Json}, stripFrom .top cs = some cs' → readElements n d cs' = some (l, out') →
    ∃ pre out, cs = pre ++ ']' :: out ∧ JsonVals Blank d pre l ∧ stripFrom .top out = some out'
  | 0, _, _, _, _, _, _, h => by simp only [readElements] at h; cases h
  | n + 1, d, cs, cs', out', l, hs, h => by
      simp only [readElements] at h
      split at h
      · cases h
      · rename_i j rest hv
        obtain ⟨w, pre, o, rfl, hw, h1, h2⟩ := readValue_sound n hs hv
        split at h
        · rename_i rest' hsk
          cases h
          obtain ⟨w2, o2, rfl, h3, h4⟩ := strip_space_to h2 hsk
          obtain ⟨out, rfl, h5⟩ := strip_top_char h4 (by decide) (by decide)
          exact ⟨w ++ pre ++ w2, out, by simp, .one hw h1 h3, h5⟩
        · rename_i rest' hsk
          cases hr : readElements n d rest' with
          | none => rw [hr] at h; cases h
          | some t =>
            obtain ⟨l1, o1⟩ := t
            rw [hr] at h
            cases h
            obtain ⟨w2, o2, rfl, h3, h4⟩ := strip_space_to h2 hsk
            obtain ⟨o3, rfl, h5⟩ := strip_top_char h4 (by decide) (by decide)
            obtain ⟨pre2, out, rfl, h6, h7⟩ := readElements_sound n h5 hr
            exact ⟨w ++ pre ++ w2 ++ ',' :: pre2, out, by simp, .more hw h1 h3 h6, h7⟩
        · cases h
/-- The same for the members of an object. -/
theorem readMembers_sound [JsonFloats] : ∀ (n : Nat) {d : Nat} {cs cs' out' : List Char}
    {l : List (String × Json)}, stripFrom .top cs = some cs' →
    readMembers n d cs' = some (l, out') →
    ∃ pre out, cs = pre ++ '}' :: out ∧ JsonMembers Blank d pre l ∧ stripFrom .top out = some out'
  | 0, _, _, _, _, _, _, h => by simp only [readMembers] at h; cases h
  | n + 1, d, cs, cs', out', l, hs, h => by
      simp only [readMembers] at h
      split at h
      · cases h
      · rename_i k rest hk
        have hne : ∃ c r, skipSpace cs' = c :: r := by
          cases hc : skipSpace cs' with
          | nil => rw [hc] at hk; cases hk
          | cons c r => exact ⟨c, r, rfl⟩
        obtain ⟨c, r, hne⟩ := hne
        obtain ⟨w, o, rfl, hw, h1⟩ := strip_space_to hs hne
        rw [hne] at hk
        obtain ⟨ks, w1, o1, rfl, hks, hw1, h2⟩ := readKey_sound h1 hk
        split at h
        · cases h
        · rename_i j rest1 hv
          obtain ⟨w2, pre, o3, rfl, hw2, h3, h4⟩ := readValue_sound n h2 hv
          split at h
          · rename_i rest' hsk
            cases h
            obtain ⟨w3, o4, rfl, h5, h6⟩ := strip_space_to h4 hsk
            obtain ⟨out, rfl, h7⟩ := strip_top_char h6 (by decide) (by decide)
            exact ⟨w ++ ks ++ w1 ++ ':' :: w2 ++ pre ++ w3, out, by simp,
              .one hw hks hw1 hw2 h3 h5, h7⟩
          · rename_i rest' hsk
            cases hr : readMembers n d rest' with
            | none => rw [hr] at h; cases h
            | some t =>
              obtain ⟨l1, o1⟩ := t
              rw [hr] at h
              cases h
              obtain ⟨w3, o4, rfl, h5, h6⟩ := strip_space_to h4 hsk
              obtain ⟨o5, rfl, h7⟩ := strip_top_char h6 (by decide) (by decide)
              obtain ⟨pre2, out, rfl, h8, h9⟩ := readMembers_sound n h7 hr
              exact ⟨w ++ ks ++ w1 ++ ':' :: w2 ++ pre ++ w3 ++ ',' :: pre2, out, by simp,
                .more hw hks hw1 hw2 h3 h5 h8, h9⟩
          · cases h
end

/-- A text that is read is a text of the grammar with comments. -/
theorem parseJsonWithComments_sound [JsonFloats] {text : String} {j : Json}
    (h : parseJsonWithComments text = some j) : CommentedJson 127 text.toList j := by
  unfold parseJsonWithComments at h
  split at h
  · cases h
  · rename_i cs hs
    unfold readJsonText at h
    split at h
    · cases h
    · rename_i j' rest hv
      split at h
      · rename_i hend
        cases h
        obtain ⟨w, pre, out, he, hw, h1, h2⟩ := readValue_sound _ hs hv
        refine ⟨w, pre, out, hw, h1, ?_, he⟩
        rcases strip_space_inv out.length (Nat.le_refl _) h2 with ⟨v, o, rfl, h3, h4⟩ | ⟨-, h3⟩
        · rw [hend] at h4
          have : o = [] := by
            cases o with
            | nil => rfl
            | cons c o =>
              exfalso
              simp only [stripFrom] at h4
              split at h4
              · cases h4
              · rename_i c' s' _
                cases hh : stripFrom s' o with
                | none => rw [hh] at h4; cases h4
                | some t => rw [hh] at h4; cases h4
          subst this
          rw [List.append_nil]
          exact .inl h3
        · exact h3
      · cases h

end Avdl.Lemmas

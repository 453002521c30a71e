import Verif.Lemmas.Braces
/-!
# Lemmas for the wording of syntax errors
-/

namespace Avdl
open Spec

/-! ## Token sets -/

theorem trim_eq_self {t : List Char} (h1 : ∀ c r, t = c :: r → isWhitespace c = false)
    (h2 : ∀ c r, t = r ++ [c] → isWhitespace c = false) : trim t = t := by
  have hs : trimStart t = t := by
    unfold trimStart
    cases t with
    | nil => rfl
    | cons c r =>
      rw [List.dropWhile_cons, h1 c r rfl]
      rfl
  have he : trimEnd t = t := by
    unfold trimEnd
    cases hr : t.reverse with
    | nil => simpa using hr.symm
    | cons c r =>
      rw [List.dropWhile_cons, h2 c r.reverse (by rw [← List.reverse_reverse t, hr]; simp)]
      rw [← List.reverse_reverse t, hr]
      simp
  unfold trim
  rw [hs, he]

theorem Spec.TokenName.ends {t : List Char} (h : TokenName t) :
    t ≠ [] ∧ (∀ c r, t = c :: r → isWhitespace c = false) ∧
      ∀ c r, t = r ++ [c] → isWhitespace c = false := by
  rcases h with ⟨hne, hall⟩ | ⟨b, rfl, -⟩
  · exact ⟨hne, fun c r h => (hall c (by rw [h]; simp)).2.2.2,
      fun c r h => (hall c (by rw [h]; simp)).2.2.2⟩
  · refine ⟨by simp, fun c r h => ?_, fun c r h => ?_⟩
    · cases h; rfl
    · have := (List.append_inj' h rfl).2
      cases this
      rfl

theorem Spec.TokenName.trimmed {t : List Char} (h : TokenName t) : trim t = t :=
  trim_eq_self h.ends.2.1 h.ends.2.2

theorem trim_space (t : List Char) : trim (' ' :: t) = trim t := by
  unfold trim trimStart
  rw [List.dropWhile_cons]
  rfl

theorem tokenSetChars_plain {t : List Char} (h : ∀ c ∈ t, c ≠ '\'' ∧ c ≠ ',') :
    ∀ (cur rest : List Char),
      tokenSetChars cur false (t ++ rest) = tokenSetChars (cur ++ t) false rest := by
  induction t with
  | nil => intro cur rest; simp
  | cons c t ih =>
    intro cur rest
    obtain ⟨h1, h2⟩ := h c (List.mem_cons_self ..)
    simp only [List.cons_append, tokenSetChars, if_neg h1, h2, decide_false, Bool.false_and,
      Bool.false_eq_true, if_false]
    rw [ih fun c hc => h c (List.mem_cons_of_mem _ hc)]
    simp

theorem tokenSetChars_inside {t : List Char} (h : '\'' ∉ t) :
    ∀ (cur rest : List Char),
      tokenSetChars cur true (t ++ rest) = tokenSetChars (cur ++ t) true rest := by
  induction t with
  | nil => intro cur rest; simp
  | cons c t ih =>
    intro cur rest
    have h1 : c ≠ '\'' := fun e => h (by rw [e]; simp)
    simp only [List.cons_append, tokenSetChars, if_neg h1, Bool.not_true, Bool.and_false,
      Bool.false_eq_true, if_false]
    rw [ih fun hc => h (List.mem_cons_of_mem _ hc)]
    simp

theorem tokenSetChars_token {t : List Char} (h : TokenName t) (cur rest : List Char) :
    tokenSetChars cur false (t ++ rest) = tokenSetChars (cur ++ t) false rest := by
  rcases h with ⟨-, hall⟩ | ⟨b, rfl, hb⟩
  · exact tokenSetChars_plain (fun c hc => ⟨(hall c hc).1, (hall c hc).2.1⟩) cur rest
  · rw [show '\'' :: b ++ ['\''] ++ rest = '\'' :: (b ++ ('\'' :: rest)) by simp]
    simp only [tokenSetChars, if_true, Bool.not_false]
    rw [tokenSetChars_inside hb]
    simp only [tokenSetChars, if_true, Bool.not_true]
    simp

theorem tokenSetChars_names : ∀ (ts : List (List Char)), (∀ t ∈ ts, TokenName t) →
    tokenSetChars [] false (separated ", " ts) = ts ∧
      (ts ≠ [] → tokenSetChars [' '] false (separated ", " ts) = ts) := by
  intro ts
  induction ts with
  | nil => intro _; exact ⟨rfl, fun h => absurd rfl h⟩
  | cons t ts ih =>
    intro h
    have ht := h t (List.mem_cons_self ..)
    have ih := ih fun t ht => h t (List.mem_cons_of_mem _ ht)
    have key : ∀ cur, trim (cur ++ t) = t →
        tokenSetChars cur false (separated ", " (t :: ts)) = t :: ts := by
      intro cur hcur
      have hc : t.isEmpty = false := by simpa using ht.ends.1
      cases ts with
      | nil =>
        simp only [separated]
        have := tokenSetChars_token ht cur []
        rw [List.append_nil] at this
        rw [this]
        simp only [tokenSetChars, hc, Bool.false_eq_true, if_false, hcur]
      | cons u us =>
        simp only [separated, List.append_assoc]
        rw [tokenSetChars_token ht]
        rw [show ", ".toList ++ separated ", " (u :: us) =
          ',' :: (' ' :: separated ", " (u :: us)) from rfl]
        simp only [tokenSetChars, show ((',' : Char) = '\'') = False from by simp, if_false,
          decide_true, Bool.not_false, Bool.and_self, if_true, hc, Bool.false_eq_true, hcur,
          show ((' ' : Char) = '\'') = False from by simp,
          show ((' ' : Char) = ',') = False from by simp, decide_false, Bool.false_and,
          List.nil_append]
        rw [ih.2 (by simp)]
    refine ⟨key [] (by simpa using ht.trimmed), fun _ => key [' '] ?_⟩
    rw [List.singleton_append, trim_space, ht.trimmed]

theorem closingBraceChars_plain {t : List Char} (h : ∀ c ∈ t, c ≠ '\'' ∧ c ≠ '}')
    (rest : List Char) : closingBraceChars false (t ++ rest) =
      (closingBraceChars false rest).map (t ++ ·) := by
  induction t with
  | nil => simp
  | cons c t ih =>
    obtain ⟨h1, h2⟩ := h c (List.mem_cons_self ..)
    simp only [List.cons_append, closingBraceChars, if_neg h1, h2, decide_false, Bool.false_and,
      Bool.false_eq_true, if_false]
    rw [ih fun c hc => h c (List.mem_cons_of_mem _ hc), Option.map_map]
    rfl

theorem closingBraceChars_inside {t : List Char} (h : '\'' ∉ t) (rest : List Char) :
    closingBraceChars true (t ++ rest) = (closingBraceChars true rest).map (t ++ ·) := by
  induction t with
  | nil => simp
  | cons c t ih =>
    have h1 : c ≠ '\'' := fun e => h (by rw [e]; simp)
    simp only [List.cons_append, closingBraceChars, if_neg h1, Bool.not_true, Bool.and_false,
      Bool.false_eq_true, if_false]
    rw [ih fun hc => h (List.mem_cons_of_mem _ hc), Option.map_map]
    rfl

theorem closingBraceChars_token {t : List Char} (h : TokenName t) (rest : List Char) :
    closingBraceChars false (t ++ rest) = (closingBraceChars false rest).map (t ++ ·) := by
  rcases h with ⟨-, hall⟩ | ⟨b, rfl, hb⟩
  · exact closingBraceChars_plain (fun c hc => ⟨(hall c hc).1, (hall c hc).2.2.1⟩) rest
  · rw [show '\'' :: b ++ ['\''] ++ rest = '\'' :: (b ++ ('\'' :: rest)) by simp]
    simp only [closingBraceChars, if_true, Bool.not_false]
    rw [closingBraceChars_inside hb]
    simp only [closingBraceChars, if_true, Bool.not_true, Option.map_map]
    congr 1
    funext x
    simp

theorem closingBraceChars_names : ∀ (ts : List (List Char)), (∀ t ∈ ts, TokenName t) →
    ∀ rest, closingBraceChars false (separated ", " ts ++ '}' :: rest) =
      some (separated ", " ts) := by
  intro ts
  induction ts with
  | nil => intro _ rest; simp [separated, closingBraceChars]
  | cons t ts ih =>
    intro h rest
    have ht := h t (List.mem_cons_self ..)
    have ih := ih (fun t ht => h t (List.mem_cons_of_mem _ ht)) rest
    cases ts with
    | nil =>
      simp only [separated]
      rw [closingBraceChars_token ht]
      simp [closingBraceChars]
    | cons u us =>
      simp only [separated, List.append_assoc]
      rw [closingBraceChars_token ht, closingBraceChars_plain (t := ", ".toList) (by decide), ih]
      rfl

theorem findClosingBrace_names {ts : List (List Char)} (h : ∀ t ∈ ts, TokenName t)
    (rest : List Char) : findClosingBrace (separated ", " ts ++ '}' :: rest) =
      some (utf8Len (separated ", " ts)) := by
  unfold findClosingBrace
  rw [closingBraceLoop_chars, closingBraceChars_names ts h]
  simp

/-! ## Replacing -/

theorem replaceFirst_absent {pat rep : List Char} : ∀ {s : List Char},
    (¬ ∃ p q, s = p ++ pat ++ q) → replaceFirst pat rep s = s := by
  intro s
  induction s with
  | nil => intro _; rfl
  | cons c s ih =>
    intro h
    simp only [replaceFirst]
    rw [if_neg, ih]
    · rintro ⟨p, q, rfl⟩
      exact h ⟨c :: p, q, by simp⟩
    · intro hp
      obtain ⟨q, hq⟩ := isPrefixOf_append hp
      exact h ⟨[], q, by simpa using hq⟩

theorem replaceFrom_absent {pat rep : List Char} : ∀ {s : List Char},
    (¬ ∃ p q, s = p ++ pat ++ q) → replaceFrom pat rep 0 s = s := by
  intro s
  induction s with
  | nil => intro _; rfl
  | cons c s ih =>
    intro h
    simp only [replaceFrom]
    rw [if_neg, ih]
    · rintro ⟨p, q, rfl⟩
      exact h ⟨c :: p, q, by simp⟩
    · intro hp
      obtain ⟨q, hq⟩ := isPrefixOf_append hp
      exact h ⟨[], q, by simpa using hq⟩

theorem stripPrefix_append (p q : List Char) : stripPrefix p (p ++ q) = some q := by
  induction p with
  | nil => cases q <;> rfl
  | cons c p ih => simp [stripPrefix, ih]

/-! ## Distinct names -/

theorem firstOccurrences_spec : ∀ (ws seen : List (List Char)),
    (firstOccurrences seen ws).Sublist ws ∧ (firstOccurrences seen ws).Nodup ∧
      (∀ w ∈ firstOccurrences seen ws, w ∉ seen) ∧
      ∀ w ∈ ws, w ∈ seen ∨ w ∈ firstOccurrences seen ws := by
  intro ws
  induction ws with
  | nil => intro seen; simp [firstOccurrences]
  | cons w ws ih =>
    intro seen
    simp only [firstOccurrences]
    split
    · rename_i hw
      obtain ⟨h1, h2, h3, h4⟩ := ih seen
      refine ⟨h1.cons _, h2, h3, fun x hx => ?_⟩
      rcases List.mem_cons.1 hx with rfl | hx
      · exact .inl hw
      · exact h4 x hx
    · rename_i hw
      obtain ⟨h1, h2, h3, h4⟩ := ih (w :: seen)
      refine ⟨h1.cons_cons _, List.nodup_cons.2 ⟨fun h => h3 w h (by simp), h2⟩, fun x hx => ?_,
        fun x hx => ?_⟩
      · rcases List.mem_cons.1 hx with rfl | hx
        · exact hw
        · exact fun h => h3 x hx (List.mem_cons_of_mem _ h)
      · rcases List.mem_cons.1 hx with rfl | hx
        · exact .inr (List.mem_cons_self ..)
        · rcases h4 x hx with h | h
          · rcases List.mem_cons.1 h with rfl | h
            · exact .inr (List.mem_cons_self ..)
            · exact .inl h
          · exact .inr (List.mem_cons_of_mem _ h)

theorem joinWith_end : ∀ (us : List (List Char)) (t u : List Char),
    joinWith ", " (t :: u :: us).dropLast ++ (", or ".toList ++ (u :: us).getLastD []) =
      t ++ (", ".toList ++ enumerationEnd (u :: us)) := by
  have ho : ", or ".toList = ", ".toList ++ "or ".toList := by decide
  intro us
  induction us with
  | nil =>
    intro t u
    rw [ho]
    simp only [List.dropLast, joinWith, enumerationEnd, List.append_assoc]
    rfl
  | cons v us ih =>
    intro t u
    have := ih u v
    rw [List.dropLast_cons_cons, List.dropLast_cons_cons, joinWith, ← List.dropLast_cons_cons,
      enumerationEnd]
    · simp only [List.append_assoc]
      rw [← this]
      rfl
    · intro h
      cases h

theorem expectedList_enumeration {ts : List (List Char)} (h : ts ≠ []) :
    expectedList ts = "expected ".toList ++ enumeration ts := by
  cases ts with
  | nil => exact absurd rfl h
  | cons t ts =>
    cases ts with
    | nil => rfl
    | cons u us =>
      cases us with
      | nil =>
        show "expected ".toList ++ t ++ " or ".toList ++ u =
          "expected ".toList ++ (t ++ " or ".toList ++ u)
        rw [List.append_assoc, List.append_assoc, List.append_assoc]
      | cons v vs =>
        show "expected ".toList ++ joinWith ", " (t :: u :: v :: vs).dropLast ++ ", or ".toList ++
          (u :: v :: vs).getLastD [] =
          "expected ".toList ++ (t ++ ", ".toList ++ enumerationEnd (u :: v :: vs))
        rw [List.append_assoc, List.append_assoc, List.append_assoc t, joinWith_end (v :: vs) t u]

end Avdl

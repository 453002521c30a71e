import Verif.Lemmas.SyntaxPlaces
/-!
# Lemmas for open braces
-/

namespace Avdl
open Spec

/-- The loop over bytes, by characters. -/
def braceChars : List Char → Nat → List Nat → Bool → Bool → List Nat
  | [], _, stack, _, _ => stack
  | c :: cs, i, stack, true, prev =>
      braceChars cs (i + c.utf8Size) stack (!(c = '"' && !prev)) (c = '\\' && !prev)
  | c :: cs, i, stack, false, prev =>
      if c = '"' then braceChars cs (i + c.utf8Size) stack true prev
      else if c = '{' then braceChars cs (i + c.utf8Size) (i :: stack) false prev
      else if c = '}' then braceChars cs (i + c.utf8Size) stack.tail false prev
      else braceChars cs (i + c.utf8Size) stack false prev

theorem braceLoop_high (bs : List UInt8) (h : ∀ b ∈ bs, 128 ≤ b) (hne : bs ≠ []) :
    ∀ (rest : List UInt8) (i : Nat) (st : List Nat) (q prev : Bool),
      braceLoop (bs ++ rest) i st q prev = braceLoop rest (i + bs.length) st q (!q && prev) := by
  induction bs with
  | nil => exact absurd rfl hne
  | cons b bs ih =>
    intro rest i st q prev
    have hb := h b (List.mem_cons_self ..)
    have h1 : b ≠ 34 := high_ne hb (d := '"') (by decide)
    have h2 : b ≠ 123 := high_ne hb (d := '{') (by decide)
    have h3 : b ≠ 125 := high_ne hb (d := '}') (by decide)
    have h4 : b ≠ 92 := high_ne hb (d := '\\') (by decide)
    have hstep : braceLoop (b :: bs ++ rest) i st q prev =
        braceLoop (bs ++ rest) (i + 1) st q (!q && prev) := by
      cases q <;>
        simp only [List.cons_append, braceLoop, h1, h2, h3, h4, decide_false, Bool.false_and,
          Bool.not_false, Bool.not_true, Bool.true_and, if_false]
    rw [hstep]
    by_cases hn : bs = []
    · subst hn; rfl
    · rw [ih (fun x hx => h x (List.mem_cons_of_mem _ hx)) hn]
      simp only [List.length_cons]
      congr 1
      · omega
      · cases q <;> rfl

theorem braceLoop_chars (s : List Char) : ∀ (i : Nat) (st : List Nat) (q prev : Bool),
    braceLoop (bytesOf s) i st q prev = braceChars s i st q prev := by
  induction s with
  | nil => intro i st q prev; cases q <;> rfl
  | cons c s ih =>
    intro i st q prev
    rw [bytesOf_cons]
    by_cases hc : c.toNat < 128
    · obtain ⟨he, hs⟩ := encode_ascii hc
      rw [he]
      have e1 : (UInt8.ofNat c.toNat = 34) = (c = '"') := propext (byte_eq hc (d := '"') (by decide))
      have e2 : (UInt8.ofNat c.toNat = 123) = (c = '{') := propext (byte_eq hc (d := '{') (by decide))
      have e3 : (UInt8.ofNat c.toNat = 125) = (c = '}') := propext (byte_eq hc (d := '}') (by decide))
      have e4 : (UInt8.ofNat c.toNat = 92) = (c = '\\') := propext (byte_eq hc (d := '\\') (by decide))
      cases q <;> simp only [List.singleton_append, braceLoop, braceChars, e1, e2, e3, e4, ih, hs]
    · rw [braceLoop_high _ (encode_high hc) (by
        intro h
        have := congrArg List.length h
        have hp := c.utf8Size_pos
        rw [String.length_utf8EncodeChar] at this
        simp at this
        omega), String.length_utf8EncodeChar, ih]
      have n1 : c ≠ '"' := by rintro rfl; exact hc (by decide)
      have n2 : c ≠ '{' := by rintro rfl; exact hc (by decide)
      have n3 : c ≠ '}' := by rintro rfl; exact hc (by decide)
      have n4 : c ≠ '\\' := by rintro rfl; exact hc (by decide)
      cases q <;> simp [braceChars, n1, n2, n3, n4]

theorem openBraces_chars (s : List Char) : openBraces s = braceChars s 0 [] false false :=
  braceLoop_chars s 0 [] false false

/-! ## Texts outside of strings -/

theorem Spec.QuotedText.snoc {b : List Char} {c : Char} (h : QuotedText b) (h1 : c ≠ '"')
    (h2 : c ≠ '\\') : QuotedText (b ++ [c]) := by
  induction h with
  | nil => exact .char h1 h2 .nil
  | char a1 a2 _ ih => exact .char a1 a2 ih
  | escape _ ih => exact .escape ih

theorem Spec.QuotedText.snocEscape {b : List Char} {c : Char} (h : QuotedText b) :
    QuotedText (b ++ ['\\', c]) := by
  induction h with
  | nil => exact .escape .nil
  | char a1 a2 _ ih => exact .char a1 a2 ih
  | escape _ ih => exact .escape ih

theorem Spec.Outside.append {p q : List Char} (h : Outside p) (h' : Outside q) : Outside (p ++ q) := by
  induction h with
  | nil => exact h'
  | char a _ ih => exact .char a ih
  | string a _ ih => simpa using Outside.string a ih

theorem Spec.Balanced.append {p q : List Char} (h : Balanced p) (h' : Balanced q) :
    Balanced (p ++ q) := by
  induction h with
  | nil => exact h'
  | char a b c _ ih => exact .char a b c ih
  | string a _ ih => simpa using Balanced.string a ih
  | block a _ _ ih => simpa using Balanced.block a ih

theorem Spec.Balanced.outside {p : List Char} (h : Balanced p) : Outside p := by
  induction h with
  | nil => exact .nil
  | char a _ _ _ ih => exact .char a ih
  | string a _ ih => exact .string a ih
  | block _ _ ih1 ih2 => exact .char (by decide) (ih1.append (.char (by decide) ih2))

/-- The stack describes the open braces of a text that does not end within a string. -/
def StackOf : List Nat → List Char → Prop
  | [], _ => True
  | i :: st, s => ∃ p q, s = p ++ '{' :: q ∧ utf8Len p = i ∧ Outside p ∧ Balanced q ∧ StackOf st p

theorem StackOf.append {st : List Nat} {s b : List Char} (h : StackOf st s) (hb : Balanced b) :
    StackOf st (s ++ b) := by
  cases st with
  | nil => trivial
  | cons i st =>
    obtain ⟨p, q, rfl, h1, h2, h3, h4⟩ := h
    exact ⟨p, q ++ b, by simp, h1, h2, h3.append hb, h4⟩

/-- The top of the stack is an unclosed brace. -/
def TopOf (st : List Nat) (s : List Char) : Prop := ∀ i, st.head? = some i → Unclosed s i

theorem StackOf.top {st : List Nat} {s tail : List Char} (h : StackOf st s)
    (ht : tail = [] ∨ Unfinished tail) : TopOf st (s ++ tail) := by
  intro i hi
  cases st with
  | nil => cases hi
  | cons j st =>
    cases hi
    obtain ⟨p, q, rfl, h1, h2, h3, -⟩ := h
    exact ⟨p, q, tail, by simp, h1, h2, h3, ht⟩

theorem braceChars_top (rest : List Char) :
    (∀ p st, Outside p → StackOf st p →
      TopOf (braceChars rest (utf8Len p) st false false) (p ++ rest)) ∧
    ∀ p b st prev, Outside p → StackOf st p →
      (if prev then ∃ b', b = b' ++ ['\\'] ∧ QuotedText b' else QuotedText b) →
      TopOf (braceChars rest (utf8Len (p ++ '"' :: b)) st true prev) (p ++ '"' :: b ++ rest) := by
  induction rest with
  | nil =>
    refine ⟨fun p st hp hst => hst.top (.inl rfl), fun p b st prev hp hst hb => ?_⟩
    simp only [braceChars, List.append_nil]
    refine hst.top (.inr ?_)
    cases prev with
    | false => exact ⟨b, hb, .inl rfl⟩
    | true =>
      obtain ⟨b', rfl, hb'⟩ := hb
      exact ⟨b', hb', .inr rfl⟩
  | cons c rest ih =>
    obtain ⟨ih1, ih2⟩ := ih
    constructor
    · intro p st hp hst
      have hlen : utf8Len p + c.utf8Size = utf8Len (p ++ [c]) := by
        rw [utf8Len_append]; simp [utf8Len]
      have happ : p ++ c :: rest = p ++ [c] ++ rest := by simp
      simp only [braceChars]
      rw [hlen, happ]
      split
      · rename_i hc
        subst hc
        have := ih2 p [] st false hp hst .nil
        simpa using this
      · rename_i hq
        have hout : Outside (p ++ [c]) := hp.append (.char hq .nil)
        split
        · rename_i hc
          subst hc
          exact ih1 (p ++ ['{']) (utf8Len p :: st) hout ⟨p, [], rfl, rfl, hp, .nil, hst⟩
        · split
          · rename_i hc
            subst hc
            refine ih1 (p ++ ['}']) st.tail hout ?_
            cases st with
            | nil => trivial
            | cons i st =>
              obtain ⟨p', q, rfl, h1, h2, h3, h4⟩ := hst
              have := h4.append (Balanced.block h3 .nil)
              simpa using this
          · rename_i h1 h2
            exact ih1 (p ++ [c]) st hout (hst.append (.char hq h1 h2 .nil))
    · intro p b st prev hp hst hb
      have hlen : utf8Len (p ++ '"' :: b) + c.utf8Size = utf8Len (p ++ '"' :: (b ++ [c])) := by
        simp only [utf8Len_append, utf8Len]; omega
      have happ : p ++ '"' :: b ++ c :: rest = p ++ '"' :: (b ++ [c]) ++ rest := by simp
      simp only [braceChars]
      rw [hlen, happ]
      cases prev with
      | true =>
        obtain ⟨b', rfl, hb'⟩ := hb
        simp only [Bool.not_true, Bool.and_false, Bool.not_false]
        refine ih2 p _ st false hp hst ?_
        simpa using hb'.snocEscape (c := c)
      | false =>
        simp only [Bool.false_eq_true, if_false] at hb
        simp only [Bool.not_false, Bool.and_true]
        by_cases hq : c = '"'
        · subst hq
          simp only [decide_true, Bool.not_true]
          rw [show (decide ('"' = '\\')) = false from rfl]
          have hs : Balanced ('"' :: (b ++ ['"'])) := by simpa using Balanced.string hb .nil
          exact ih1 _ st (hp.append hs.outside) (hst.append hs)
        · simp only [hq, decide_false, Bool.not_false]
          by_cases hbs : c = '\\'
          · subst hbs
            exact ih2 p _ st true hp hst ⟨b, rfl, hb⟩
          · simp only [hbs, decide_false]
            exact ih2 p _ st false hp hst (hb.snoc hq hbs)

theorem braceChars_body {b : List Char} (h : QuotedText b) : ∀ (rest : List Char) (i : Nat)
    (st : List Nat), braceChars (b ++ rest) i st true false =
      braceChars rest (i + utf8Len b) st true false := by
  induction h with
  | nil => intro rest i st; rfl
  | @char c s h1 h2 _ ih =>
    intro rest i st
    simp only [List.cons_append, braceChars, h1, h2, decide_false, Bool.false_and, Bool.not_false, ih,
      utf8Len]
    congr 1
    omega
  | @escape c s _ ih =>
    intro rest i st
    simp only [List.cons_append, braceChars, decide_true, Bool.not_false, Bool.and_true,
      Bool.not_true, Bool.and_false, ih, utf8Len,
      show decide (('\\' : Char) = '"') = false from rfl]
    congr 1
    omega

theorem braceChars_string {b : List Char} (h : QuotedText b) (rest : List Char) (i : Nat)
    (st : List Nat) : braceChars ('"' :: b ++ '"' :: rest) i st false false =
      braceChars rest (i + utf8Len ('"' :: b ++ ['"'])) st false false := by
  simp only [List.cons_append, braceChars, if_true]
  rw [braceChars_body h]
  simp only [braceChars, decide_true, Bool.not_false, Bool.and_true, Bool.not_true,
    show decide (('"' : Char) = '\\') = false from rfl, utf8Len_append, utf8Len]
  congr 1
  omega

theorem braceChars_outside {p : List Char} (h : Outside p) : ∀ (i : Nat) (st : List Nat), ∃ st',
    ∀ rest, braceChars (p ++ rest) i st false false =
      braceChars rest (i + utf8Len p) st' false false := by
  induction h with
  | nil => intro i st; exact ⟨st, fun _ => rfl⟩
  | @char c s hc _ ih =>
    intro i st
    have hadd : ∀ r st', braceChars r (i + c.utf8Size + utf8Len s) st' false false =
        braceChars r (i + utf8Len (c :: s)) st' false false := by
      intro r st'
      simp only [utf8Len]
      congr 1
      omega
    by_cases h1 : c = '{'
    · obtain ⟨st', h⟩ := ih (i + c.utf8Size) (i :: st)
      refine ⟨st', fun rest => ?_⟩
      simp only [List.cons_append, braceChars, if_neg hc, if_pos h1]
      rw [h, hadd]
    · by_cases h2 : c = '}'
      · obtain ⟨st', h⟩ := ih (i + c.utf8Size) st.tail
        refine ⟨st', fun rest => ?_⟩
        simp only [List.cons_append, braceChars, if_neg hc, if_neg h1, if_pos h2]
        rw [h, hadd]
      · obtain ⟨st', h⟩ := ih (i + c.utf8Size) st
        refine ⟨st', fun rest => ?_⟩
        simp only [List.cons_append, braceChars, if_neg hc, if_neg h1, if_neg h2]
        rw [h, hadd]
  | @string b s hb _ ih =>
    intro i st
    obtain ⟨st', h⟩ := ih (i + utf8Len ('"' :: b ++ ['"'])) st
    refine ⟨st', fun rest => ?_⟩
    rw [show '"' :: b ++ '"' :: s ++ rest = '"' :: b ++ '"' :: (s ++ rest) by simp,
      braceChars_string hb, h]
    simp only [utf8Len_append, utf8Len, List.cons_append]
    congr 1
    omega

theorem braceChars_balanced {p : List Char} (h : Balanced p) : ∀ (rest : List Char) (i : Nat)
    (st : List Nat), braceChars (p ++ rest) i st false false =
      braceChars rest (i + utf8Len p) st false false := by
  induction h with
  | nil => intro rest i st; rfl
  | @char c s h1 h2 h3 _ ih =>
    intro rest i st
    simp only [List.cons_append, braceChars, if_neg h1, if_neg h2, if_neg h3, ih, utf8Len]
    congr 1
    omega
  | @string b s hb _ ih =>
    intro rest i st
    rw [show '"' :: b ++ '"' :: s ++ rest = '"' :: b ++ '"' :: (s ++ rest) by simp,
      braceChars_string hb, ih]
    simp only [utf8Len_append, utf8Len, List.cons_append]
    congr 1
    omega
  | @block b s _ _ ih1 ih2 =>
    intro rest i st
    rw [show '{' :: b ++ '}' :: s ++ rest = '{' :: (b ++ '}' :: (s ++ rest)) by simp]
    simp only [braceChars, if_true, show (('{' : Char) = '"') = False from by simp, if_false]
    rw [ih1]
    simp only [braceChars, if_true, show (('}' : Char) = '"') = False from by simp,
      show (('}' : Char) = '{') = False from by simp, if_false, List.tail_cons]
    rw [ih2]
    simp only [utf8Len_append, utf8Len, List.cons_append]
    congr 1
    omega

theorem braceChars_unfinished {t : List Char} (h : Unfinished t) (i : Nat) (st : List Nat) :
    braceChars t i st false false = st := by
  obtain ⟨b, hb, rfl | rfl⟩ := h
  · simp only [braceChars, if_true]
    have := braceChars_body hb [] (i + ('"' : Char).utf8Size) st
    rw [List.append_nil] at this
    rw [this]
    rfl
  · simp only [List.cons_append, braceChars, if_true]
    rw [braceChars_body hb]
    simp only [braceChars]

/-- The innermost open brace is the unclosed one. -/
theorem openBraces_head {s : List Char} {i : Nat} :
    (openBraces s).head? = some i ↔ Unclosed s i := by
  rw [openBraces_chars]
  constructor
  · intro h
    exact (braceChars_top s).1 [] [] .nil trivial i h
  · rintro ⟨p, q, t, rfl, rfl, hp, hq, ht⟩
    obtain ⟨st', h⟩ := braceChars_outside hp 0 []
    rw [show p ++ '{' :: q ++ t = p ++ ('{' :: (q ++ t)) by simp, h]
    simp only [braceChars, if_true, show (('{' : Char) = '"') = False from by simp, if_false]
    rw [braceChars_balanced hq]
    rcases ht with rfl | ht
    · simp [braceChars]
    · rw [braceChars_unfinished ht]
      simp

theorem Spec.Unclosed.brace {s : List Char} {i : Nat} (h : Unclosed s i) :
    ∃ p q, s = p ++ '{' :: q ∧ utf8Len p = i := by
  obtain ⟨p, q, t, rfl, h, -⟩ := h
  exact ⟨p, q ++ t, by simp, h⟩

/-! ## Errors about open braces -/

theorem identifyConstruct_ok (s : List Char) : Ok (identifyConstruct s) fun _ => True := by
  unfold identifyConstruct
  refine .bind (lastWord_ok true _) fun r _ => ?_
  split
  · exact .pure trivial
  · repeat' (split; · exact .pure trivial)
    refine .bind (lastWord_ok false _) fun r _ => ?_
    split
    · exact .pure trivial
    · repeat' (split; · exact .pure trivial)
      exact .pure trivial

theorem openBraceError_ok {s p q : List Char} {l c : Nat} {e : SyntaxErr} (h : Refined s l c e)
    (hs : s = p ++ '{' :: q) (what help : String) :
    Ok (openBraceError e s (utf8Len p) what help) (Refined s l c) := by
  have h1 : ('{' : Char).utf8Size = 1 := rfl
  have hfit : utf8Len p + 1 ≤ utf8Len s + 1 := by
    rw [hs, utf8Len_append]; omega
  have hb : Boundary s (utf8Len p) := ⟨p, _, hs, rfl⟩
  unfold openBraceError
  refine .bind (sliceTo_ok hb) fun before _ => ?_
  refine .bind (identifyConstruct_ok _) fun r _ => ?_
  rw [linePrefix_ok h]
  refine .bind (P := fun p => p = linePart l c) (.pure rfl) fun pre hpre => ?_
  subst hpre
  split
  · exact .pure ⟨hb, hfit, _, by simp only [List.append_assoc]; rfl⟩
  · exact .pure ⟨hb, hfit, _, rfl⟩

theorem detectMissingCloseBrace_ok {s : List Char} {l c : Nat} {e : SyntaxErr}
    (h : Refined s l c e) : Ok (detectMissingCloseBrace e s) (Found s l c) := by
  unfold detectMissingCloseBrace
  split
  · exact .pure .nothing
  · split
    · exact .pure .nothing
    · split
      · exact .pure .nothing
      · refine .bind (sliceTo_ok h.place) fun head hb => ?_
        obtain ⟨q, hs, hlen⟩ := hb
        refine .bind (lastWord_ok true _) fun r _ => ?_
        split
        · exact .pure .nothing
        · refine .bind (P := fun _ => True) ?_ fun decl _ => ?_
          · split
            · exact .pure trivial
            · exact .map (lastWord_ok false _) fun _ _ => trivial
          · split
            · exact .pure .nothing
            · split
              · exact .pure .nothing
              · rename_i brace st hst
                have hu : Unclosed head brace := openBraces_head.1 (by rw [hst]; rfl)
                obtain ⟨p, q', hp, rfl⟩ := hu.brace
                exact .map (openBraceError_ok h (by rw [hs, hp]; simp only [List.append_assoc]; rfl) _ _)
                  fun x hx => .it hx

theorem detectUnclosedBrace_ok {s : List Char} {l c : Nat} {e : SyntaxErr}
    (h : Refined s l c e) : Ok (detectUnclosedBrace e s) (Found s l c) := by
  unfold detectUnclosedBrace
  split
  · exact .pure .nothing
  · split
    · exact .pure .nothing
    · rename_i brace st hst
      have hu : Unclosed s brace := openBraces_head.1 (by rw [hst]; rfl)
      obtain ⟨p, q', hp, rfl⟩ := hu.brace
      exact .map (openBraceError_ok h hp _ _) fun x hx => .it hx

theorem firstFound_ok {s : List Char} {l c : Nat} {e : SyntaxErr}
    {ds : List (SyntaxErr → List Char → Option (Option SyntaxErr))}
    (h : ∀ d ∈ ds, Ok (d e s) (Found s l c)) : Ok (firstFound e s ds) (Found s l c) := by
  induction ds with
  | nil => exact .pure .nothing
  | cons d ds ih =>
    unfold firstFound
    refine .bind (h d (List.mem_cons_self ..)) fun r hr => ?_
    split
    · exact .pure hr
    · exact ih fun d hd => h d (List.mem_cons_of_mem _ hd)

/-- An error with some position. -/
def Reported (s : List Char) (ps : List (Nat × Nat)) (x : SyntaxErr) : Prop :=
  ∃ p ∈ ps, Refined s p.1 p.2 x

theorem refine_ok {s : List Char} {ps : List (Nat × Nat)} {errors : List SyntaxErr}
    (h : ∀ e ∈ errors, Reported s ps e) :
    Ok (refine errors s) fun rs => (errors ≠ [] → rs ≠ []) ∧ rs.length ≤ errors.length ∧
      ∀ x ∈ rs, Reported s ps x := by
  unfold refine
  split
  · exact .pure ⟨id, Nat.le_refl _, fun _ h => by cases h⟩
  · rename_i first more
    obtain ⟨p, hp, hf⟩ := h first (List.mem_cons_self ..)
    refine .bind (P := Found s p.1 p.2) (firstFound_ok ?_) fun r hr => ?_
    · intro d hd
      simp only [List.mem_append, List.mem_cons, List.not_mem_nil, or_false] at hd
      rcases hd with ((rfl | rfl | rfl | rfl | rfl) | hd) | rfl
      · exact detectEmptyUnion_ok hf
      · exact detectEmptyTypeParameter_ok hf
      · exact detectFixedNonInteger_ok hf
      · exact detectMissingName_ok hf
      · exact detectTrailingComma_ok hf
      · split at hd
        · cases hd
        · rw [List.mem_singleton.1 hd]
          exact detectMisspelled_ok hf
      · exact detectMissingCloseBrace_ok hf
    · split
      · rename_i x
        refine .pure ⟨fun _ => by simp, by simp, fun y hy => ?_⟩
        rw [List.mem_singleton.1 hy]
        exact ⟨p, hp, hr _ rfl⟩
      · have hlast : (first :: more).getLastD first ∈ first :: more := by
          rw [List.getLastD_cons]
          exact List.getLastD_mem_cons ..
        obtain ⟨p', hp', hl⟩ := h _ hlast
        refine .bind (detectUnclosedBrace_ok hl) fun r hr => ?_
        split
        · refine .pure ⟨fun _ => by simp, by simp, fun y hy => ?_⟩
          rcases List.mem_cons.1 hy with rfl | hy
          · exact ⟨p', hp', hr _ rfl⟩
          · exact h y (List.dropLast_subset _ hy)
        · exact .pure ⟨id, Nat.le_refl _, h⟩

end Avdl

import Verif.Lemmas.JsonRead
/-!
# Lemmas: comments are white space
-/

namespace Avdl.Lemmas

open Avdl.Spec

/-- Removing the comments turns `cs` into `cs'`, whatever follows. -/
def Stripped (cs cs' : List Char) : Prop := ∀ rest,
  stripFrom .top (cs ++ rest) = (stripFrom .top rest).map (cs' ++ ·)

theorem Stripped.nil : Stripped [] [] := by
  intro rest
  cases h : stripFrom .top rest <;> simp [h]

theorem Stripped.append {a a' b b' : List Char} (ha : Stripped a a') (hb : Stripped b b') :
    Stripped (a ++ b) (a' ++ b') := by
  intro rest
  rw [List.append_assoc, ha, hb]
  cases stripFrom .top rest <;> simp

theorem stripFrom_cons {s s' : StripState} {c c' : Char} {cs : List Char}
    (h : stripStep s c = some (c', s')) :
    stripFrom s (c :: cs) = (stripFrom s' cs).map (c' :: ·) := by
  simp only [stripFrom, h]

theorem Stripped.char {c : Char} (h1 : c ≠ '"') (h2 : c ≠ '/') : Stripped [c] [c] := by
  intro rest
  have : stripStep .top c = some (c, .top) := by simp [stripStep, h1, h2]
  exact stripFrom_cons this

theorem Stripped.plain {cs : List Char} (h : ∀ c ∈ cs, c ≠ '"' ∧ c ≠ '/') : Stripped cs cs := by
  induction cs with
  | nil => exact .nil
  | cons c cs ih =>
    have := h c (by simp)
    exact (Stripped.char this.1 this.2).append (ih fun x hx => h x (by simp [hx]))

theorem Stripped.cons {c : Char} {cs cs' : List Char} (h : Stripped cs cs') (h1 : c ≠ '"')
    (h2 : c ≠ '/') : Stripped (c :: cs) (c :: cs') := (Stripped.char h1 h2).append h

/-! ## Comments -/

/-- Inside of a block comment, after a star or not. -/
theorem strip_block : ∀ (b : List Char) (s : StripState),
    (s = .block ∧ ¬ ['*', '/'] <:+: b) ∨ (s = .star ∧ ¬ ['*', '/'] <:+: '*' :: b) →
    ∃ b', Spaces b' ∧ ∀ rest,
      stripFrom s (b ++ '*' :: '/' :: rest) = (stripFrom .top rest).map (b' ++ ·) := by
  intro b
  induction b with
  | nil =>
    intro s hs
    refine ⟨[' ', ' '], by intro c hc; simp at hc; subst hc; decide, fun rest => ?_⟩
    have h2 : stripFrom .star ('/' :: rest) = (stripFrom .top rest).map (' ' :: ·) :=
      stripFrom_cons rfl
    have h1 : stripFrom s ('*' :: '/' :: rest) =
        (stripFrom .star ('/' :: rest)).map (' ' :: ·) := by
      rcases hs with ⟨rfl, -⟩ | ⟨rfl, -⟩ <;> exact stripFrom_cons rfl
    rw [List.nil_append, h1, h2]
    cases stripFrom .top rest <;> rfl
  | cons c b ih =>
    intro s hs
    have key : ∃ s', stripStep s c = some (' ', s') ∧
        ((s' = .block ∧ ¬ ['*', '/'] <:+: b) ∨ (s' = .star ∧ ¬ ['*', '/'] <:+: '*' :: b)) := by
      have tl : ∀ x, ¬ ['*', '/'] <:+: x :: b → ¬ ['*', '/'] <:+: b := fun x h h' =>
        h (h'.trans (List.suffix_cons x b).isInfix)
      by_cases hc : c = '*'
      · subst hc
        refine ⟨.star, ?_, .inr ⟨rfl, ?_⟩⟩
        · rcases hs with ⟨rfl, -⟩ | ⟨rfl, -⟩ <;> rfl
        · rcases hs with ⟨-, h⟩ | ⟨-, h⟩
          · exact h
          · exact fun h' => h (h'.trans (List.suffix_cons _ _).isInfix)
      · refine ⟨.block, ?_, .inl ⟨rfl, ?_⟩⟩
        · rcases hs with ⟨rfl, h⟩ | ⟨rfl, h⟩
          · simp [stripStep, hc]
          · have : c ≠ '/' := by
              rintro rfl
              exact h ⟨[], b, rfl⟩
            simp [stripStep, hc, this]
        · rcases hs with ⟨-, h⟩ | ⟨-, h⟩
          · exact tl c h
          · exact fun h' => h ((h'.trans (List.suffix_cons _ _).isInfix).trans
              (List.suffix_cons _ _).isInfix)
    obtain ⟨s', h1, h2⟩ := key
    obtain ⟨b', hb, hr⟩ := ih s' h2
    refine ⟨' ' :: b', ?_, fun rest => ?_⟩
    · intro x hx
      rcases List.mem_cons.1 hx with rfl | hx
      · decide
      · exact hb x hx
    · rw [List.cons_append, stripFrom_cons h1, hr]
      cases stripFrom .top rest <;> rfl

/-- Inside of a line comment. -/
theorem strip_line (b : List Char) (hb : '\n' ∉ b) (rest : List Char) :
    stripFrom .line (b ++ rest) = (stripFrom .line rest).map (List.replicate b.length ' ' ++ ·) := by
  induction b with
  | nil => cases h : stripFrom .line rest <;> simp [h]
  | cons c b ih =>
    have h1 : stripStep .line c = some (' ', .line) := by
      have : c ≠ '\n' := fun h => hb (by simp [h])
      simp [stripStep, this]
    rw [List.cons_append, stripFrom_cons h1, ih fun h => hb (by simp [h])]
    cases stripFrom .line rest <;> rfl

theorem spaces_replicate (n : Nat) : Spaces (List.replicate n ' ') := by
  intro c hc
  rw [(List.mem_replicate.1 hc).2]
  decide

theorem _root_.Avdl.Spec.Spaces.append {a b : List Char} (ha : Spaces a) (hb : Spaces b) : Spaces (a ++ b) := by
  intro c hc
  rcases List.mem_append.1 hc with h | h
  · exact ha c h
  · exact hb c h

theorem _root_.Avdl.Spec.Spaces.cons {c : Char} {b : List Char} (hc : c ∈ jsonSpaces) (hb : Spaces b) :
    Spaces (c :: b) := by
  intro x hx
  rcases List.mem_cons.1 hx with rfl | h
  · exact hc
  · exact hb x h

theorem space_plain {c : Char} (h : c ∈ jsonSpaces) : c ≠ '"' ∧ c ≠ '/' := by
  simp only [jsonSpaces, List.mem_cons, List.not_mem_nil, or_false] at h
  rcases h with rfl | rfl | rfl | rfl <;> decide

/-- White space and comments become white space. -/
theorem blank_stripped {w : List Char} (h : Blank w) : ∃ w', Spaces w' ∧ Stripped w w' := by
  induction h with
  | nil => exact ⟨[], by intro c hc; simp at hc, .nil⟩
  | @space c w hc _ ih =>
    obtain ⟨w', h1, h2⟩ := ih
    exact ⟨c :: w', h1.cons hc, h2.cons (space_plain hc).1 (space_plain hc).2⟩
  | @block b w hb _ ih =>
    obtain ⟨w', h1, h2⟩ := ih
    obtain ⟨b', hb1, hb2⟩ := strip_block b .block (.inl ⟨rfl, hb⟩)
    refine ⟨' ' :: ' ' :: (b' ++ w'), ?_, ?_⟩
    · exact ((hb1.append h1).cons (by decide)).cons (by decide)
    · intro rest
      have e : '/' :: '*' :: b ++ '*' :: '/' :: w ++ rest =
          '/' :: '*' :: (b ++ '*' :: '/' :: (w ++ rest)) := by simp
      rw [e, stripFrom_cons (s' := .slash) (c' := ' ') rfl,
        stripFrom_cons (s' := .block) (c' := ' ') rfl, hb2, h2]
      cases stripFrom .top rest <;> simp
  | @line b w hb _ ih =>
    obtain ⟨w', h1, h2⟩ := ih
    refine ⟨' ' :: ' ' :: (List.replicate b.length ' ' ++ '\n' :: w'), ?_, ?_⟩
    · exact (((spaces_replicate _).append (h1.cons (by decide))).cons (by decide)).cons (by decide)
    · intro rest
      have e : '/' :: '/' :: b ++ '\n' :: w ++ rest = '/' :: '/' :: (b ++ '\n' :: (w ++ rest)) := by
        simp
      rw [e, stripFrom_cons (s' := .slash) (c' := ' ') rfl,
        stripFrom_cons (s' := .line) (c' := ' ') rfl, strip_line b hb,
        stripFrom_cons (s' := .top) (c' := '\n') rfl, h2]
      cases stripFrom .top rest <;> simp

/-- The same at the end of a text. -/
theorem blankEnd_stripped {w : List Char} (h : BlankEnd w) :
    ∃ w', Spaces w' ∧ stripFrom .top w = some w' := by
  rcases h with h | ⟨w1, b, h1, hb, rfl⟩
  · obtain ⟨w', h1, h2⟩ := blank_stripped h
    refine ⟨w', h1, ?_⟩
    have := h2 []
    rw [List.append_nil] at this
    rw [this]
    simp [stripFrom]
  · obtain ⟨w', h2, h3⟩ := blank_stripped h1
    refine ⟨w' ++ (' ' :: ' ' :: List.replicate b.length ' '), ?_, ?_⟩
    · exact h2.append (((spaces_replicate _).cons (by decide)).cons (by decide))
    · have := strip_line b hb []
      rw [List.append_nil] at this
      rw [h3, stripFrom_cons (s' := .slash) (c' := ' ') rfl,
        stripFrom_cons (s' := .line) (c' := ' ') rfl, this]
      simp [stripFrom]

/-! ## Tokens -/

/-- Hexadecimal digits are neither quotes nor backslashes. -/
theorem digit_chars {r : Nat} (hr : r ≤ 16) {ds : List Char} {v : Nat} (h : Digits r ds v) :
    ∀ c ∈ ds, c ≠ '"' ∧ c ≠ '/' ∧ c ≠ '\\' := by
  intro c hc
  obtain ⟨d, hd⟩ := digits_mem h hc
  exact ⟨digit_ne hr hd (by decide), digit_ne hr hd (by decide), digit_ne hr hd (by decide)⟩

theorem strip_in_string {e : List Char} (h : ∀ c ∈ e, c ≠ '"' ∧ c ≠ '\\') (rest : List Char) :
    stripFrom .inString (e ++ rest) = (stripFrom .inString rest).map (e ++ ·) := by
  induction e with
  | nil => cases h : stripFrom .inString rest <;> simp [h]
  | cons c e ih =>
    have h1 : stripStep .inString c = some (c, .inString) := by
      have := h c (by simp)
      simp [stripStep, this.1, this.2]
    rw [List.cons_append, stripFrom_cons h1, ih fun x hx => h x (by simp [hx])]
    cases stripFrom .inString rest <;> rfl

theorem strip_codeUnit {u : List Char} {v : Nat} (h : CodeUnit u v) (rest : List Char) :
    stripFrom .inString (u ++ rest) = (stripFrom .inString rest).map (u ++ ·) := by
  obtain ⟨hex, -, hd, rfl⟩ := h
  have := strip_in_string (e := hex)
    (fun c hc => let h := digit_chars (by omega) hd c hc; ⟨h.1, h.2.2⟩) rest
  rw [List.cons_append, List.cons_append, stripFrom_cons (s' := .escape) (c' := '\\') rfl,
    stripFrom_cons (s' := .inString) (c' := 'u') rfl, this]
  cases stripFrom .inString rest <;> rfl

theorem strip_chars {e s : List Char} (h : JsonChars e s) (rest : List Char) :
    stripFrom .inString (e ++ '"' :: rest) = (stripFrom .top rest).map (e ++ '"' :: ·) := by
  induction h with
  | nil => exact stripFrom_cons rfl
  | @plain c e s h1 h2 h3 _ ih =>
    have := strip_in_string (e := [c]) (by intro x hx; simp at hx; subst hx; exact ⟨h1, h2⟩)
      (e ++ '"' :: rest)
    rw [List.cons_append]
    rw [List.singleton_append] at this
    rw [this, ih]
    cases stripFrom .top rest <;> rfl
  | @escape k c e s hk _ ih =>
    rw [List.cons_append, List.cons_append, stripFrom_cons (s' := .escape) (c' := '\\') rfl,
      stripFrom_cons (s' := .inString) (c' := k) rfl, ih]
    cases stripFrom .top rest <;> rfl
  | @unicode u v e s hu hh hl _ ih =>
    rw [List.append_assoc, strip_codeUnit hu, ih]
    cases stripFrom .top rest <;> simp
  | @pair u h w l e s hu hh hw hl _ ih =>
    rw [List.append_assoc, List.append_assoc, strip_codeUnit hu, strip_codeUnit hw, ih]
    cases stripFrom .top rest <;> simp

theorem string_stripped {cs : List Char} {s : String} (h : JsonString cs s) : Stripped cs cs := by
  obtain ⟨e, rfl, he⟩ := h
  intro rest
  have e1 : '"' :: e ++ ['"'] ++ rest = '"' :: (e ++ '"' :: rest) := by simp
  rw [e1, stripFrom_cons (s' := .inString) (c' := '"') rfl, strip_chars he]
  cases stripFrom .top rest <;> simp

theorem number_stripped [JsonFloats] {cs : List Char} {n : JNum} (h : JsonNumber cs n) :
    Stripped cs cs := by
  have dg : ∀ {ds : List Char}, SomeDigits ds → Stripped ds ds := by
    rintro ds ⟨-, v, hv⟩
    exact .plain fun c hc => let h := digit_chars (by omega) hv c hc; ⟨h.1, h.2.1⟩
  have minus : Stripped ['-'] ['-'] := .char (by decide) (by decide)
  cases h with
  | natural h1 _ _ => exact dg h1.1
  | negative h1 _ _ _ => exact minus.append (dg h1.1)
  | @float sign ds frac exp f h1 h2 h3 h4 h5 h6 =>
    refine Stripped.append (Stripped.append (Stripped.append ?_ (dg h2.1)) ?_) ?_
    · rcases h1 with rfl | rfl
      · exact .nil
      · exact minus
    · rcases h3 with rfl | ⟨ds, hd, rfl⟩
      · exact .nil
      · exact (dg hd).cons (by decide) (by decide)
    · rcases h4 with rfl | ⟨e, sign, ds, he, hs, hd, rfl⟩
      · exact .nil
      · have h1 : Stripped (sign ++ ds) (sign ++ ds) := by
          refine Stripped.append ?_ (dg hd)
          rcases hs with rfl | rfl | rfl
          · exact .nil
          · exact .char (by decide) (by decide)
          · exact minus
        rcases he with rfl | rfl <;> exact h1.cons (by decide) (by decide)

/-! ## Values -/

mutual
/-- A value with comments, and the same one without. -/
theorem val_stripped [JsonFloats] {d : Nat} {cs : List Char} {j : Json} (h : JsonVal Blank d cs j) :
    ∃ cs', JsonVal Spaces d cs' j ∧ Stripped cs cs' := by
  cases h with
  | null => exact ⟨_, .null, .plain (by decide)⟩
  | true => exact ⟨_, .true, .plain (by decide)⟩
  | false => exact ⟨_, .false, .plain (by decide)⟩
  | num hn => exact ⟨_, .num hn, number_stripped hn⟩
  | str hs => exact ⟨_, .str hs, string_stripped hs⟩
  | arr0 hw =>
    obtain ⟨w', h1, h2⟩ := blank_stripped hw
    exact ⟨_, .arr0 h1, (h2.cons (by decide) (by decide)).append (.char (by decide) (by decide))⟩
  | arr hl =>
    obtain ⟨cs', h1, h2⟩ := vals_stripped hl
    exact ⟨_, .arr h1, (h2.cons (by decide) (by decide)).append (.char (by decide) (by decide))⟩
  | obj0 hw =>
    obtain ⟨w', h1, h2⟩ := blank_stripped hw
    exact ⟨_, .obj0 h1, (h2.cons (by decide) (by decide)).append (.char (by decide) (by decide))⟩
  | obj hm ho =>
    obtain ⟨cs', h1, h2⟩ := members_stripped hm
    exact ⟨_, .obj h1 ho, (h2.cons (by decide) (by decide)).append (.char (by decide) (by decide))⟩
termination_by 2 * cs.length
decreasing_by all_goals (subst_vars; simp only [List.length_append, List.length_cons, List.length_nil]; omega)
/-- The same for the elements of an array. -/
theorem vals_stripped [JsonFloats] {d : Nat} {cs : List Char} {l : List Json}
    (h : JsonVals Blank d cs l) : ∃ cs', JsonVals Spaces d cs' l ∧ Stripped cs cs' := by
  cases h with
  | one hw hv hw' =>
    obtain ⟨w, h1, h2⟩ := blank_stripped hw
    obtain ⟨cs, h3, h4⟩ := val_stripped hv
    obtain ⟨w', h5, h6⟩ := blank_stripped hw'
    exact ⟨_, .one h1 h3 h5, (h2.append h4).append h6⟩
  | more hw hv hw' hl =>
    obtain ⟨w, h1, h2⟩ := blank_stripped hw
    obtain ⟨cs, h3, h4⟩ := val_stripped hv
    obtain ⟨w', h5, h6⟩ := blank_stripped hw'
    obtain ⟨rest, h7, h8⟩ := vals_stripped hl
    exact ⟨_, .more h1 h3 h5 h7, ((h2.append h4).append h6).append (h8.cons (by decide) (by decide))⟩
termination_by 2 * cs.length + 1
decreasing_by all_goals (subst_vars; simp only [List.length_append, List.length_cons]; omega)
/-- The same for the members of an object. -/
theorem members_stripped [JsonFloats] {d : Nat} {cs : List Char} {l : List (String × Json)}
    (h : JsonMembers Blank d cs l) : ∃ cs', JsonMembers Spaces d cs' l ∧ Stripped cs cs' := by
  cases h with
  | one hw hk hw1 hw2 hv hw' =>
    obtain ⟨w, h1, h2⟩ := blank_stripped hw
    obtain ⟨w1, g1, g2⟩ := blank_stripped hw1
    obtain ⟨w2, g3, g4⟩ := blank_stripped hw2
    obtain ⟨cs, h3, h4⟩ := val_stripped hv
    obtain ⟨w', h5, h6⟩ := blank_stripped hw'
    exact ⟨_, .one h1 hk g1 g3 h3 h5, ((((h2.append (string_stripped hk)).append g2).append
      (g4.cons (by decide) (by decide))).append h4).append h6⟩
  | more hw hk hw1 hw2 hv hw' hl =>
    obtain ⟨w, h1, h2⟩ := blank_stripped hw
    obtain ⟨w1, g1, g2⟩ := blank_stripped hw1
    obtain ⟨w2, g3, g4⟩ := blank_stripped hw2
    obtain ⟨cs, h3, h4⟩ := val_stripped hv
    obtain ⟨w', h5, h6⟩ := blank_stripped hw'
    obtain ⟨rest, h7, h8⟩ := members_stripped hl
    exact ⟨_, .more h1 hk g1 g3 h3 h5 h7, (((((h2.append (string_stripped hk)).append g2).append
      (g4.cons (by decide) (by decide))).append h4).append h6).append
      (h8.cons (by decide) (by decide))⟩
termination_by 2 * cs.length + 1
decreasing_by all_goals (subst_vars; simp only [List.length_append, List.length_cons]; omega)
end

/-- A text of the grammar with comments is read as the document it denotes. -/
theorem parseJsonWithComments_of [JsonFloats] {text : String} {j : Json}
    (h : CommentedJson 127 text.toList j) : parseJsonWithComments text = some j := by
  obtain ⟨w, cs, w', hw, hv, hw', he⟩ := h
  obtain ⟨v, h1, h2⟩ := blank_stripped hw
  obtain ⟨ds, h3, h4⟩ := val_stripped hv
  obtain ⟨v', h5, h6⟩ := blankEnd_stripped hw'
  have : stripFrom .top text.toList = some (v ++ ds ++ v') := by
    rw [he, (h2.append h4) w', h6]
    rfl
  simp only [parseJsonWithComments, this]
  exact readJsonText_of ⟨v, ds, v', h1, h3, h5, rfl⟩

end Avdl.Lemmas

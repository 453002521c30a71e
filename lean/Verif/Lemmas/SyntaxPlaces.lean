import Verif.Lemmas.SyntaxErrors
/-!
# Lemmas for syntax errors: the mistakes found in the source, and where they are
-/

namespace Avdl
open Spec

theorem digits_isDigit (n : Nat) : ∀ d ∈ Nat.toDigits 10 n, d.isDigit = true := fun _ h =>
  Nat.isDigit_of_mem_toDigits (by decide) (by decide) h

theorem findStr_head (pat q : List Char) : findStr pat (pat ++ q) = some 0 := by
  cases h : pat ++ q with
  | nil =>
    have : pat = [] := (List.append_eq_nil_iff.1 h).1
    simp [findStr, this]
  | cons c cs =>
    simp only [findStr]
    rw [← h, if_pos]
    exact List.isPrefixOf_iff_prefix.2 ⟨q, rfl⟩

theorem findStr_char (x : Char) (s : List Char) : findStr [x] s = findChar (· = x) s := by
  induction s with
  | nil => rfl
  | cons c b ih =>
    simp only [findStr, findChar, ih, List.isPrefixOf, Bool.and_true, beq_iff_eq,
      decide_eq_true_eq, eq_comm (a := c)]

/-- The position at the beginning of a message is found. -/
theorem linePrefix_linePart (l c : Nat) (rest : List Char) :
    linePrefix (linePart l c ++ rest) = some (linePart l c) := by
  have hl := digits_isDigit l
  have hc := digits_isDigit c
  unfold linePart
  generalize Nat.toDigits 10 l = dl at *
  generalize Nat.toDigits 10 c = dc at *
  have hs : "line ".toList ++ dl ++ ":".toList ++ dc ++ " ".toList ++ rest =
      "line ".toList ++ (dl ++ ':' :: (dc ++ ' ' :: rest)) := by simp
  unfold linePrefix
  rw [hs, findStr_head]
  simp only [Nat.zero_add]
  rw [show (5 : Nat) = utf8Len "line ".toList from rfl, sliceFrom_append]
  show (match findStr [':'] (dl ++ ':' :: (dc ++ ' ' :: rest)) with
    | none => _
    | some colon => _) = _
  rw [findStr_char, findChar_append (f := (· = ':')) (by
    intro d hd
    rw [decide_eq_false_iff_not]
    rintro rfl
    exact absurd (hl _ hd) (by decide)) (by rfl)]
  simp only
  rw [show utf8Len dl + 1 = utf8Len (dl ++ [':']) by rw [utf8Len_append]; rfl,
    show dl ++ ':' :: (dc ++ ' ' :: rest) = dl ++ [':'] ++ (dc ++ ' ' :: rest) by simp,
    sliceFrom_append]
  have hd : findChar (fun c => !c.isDigit) (dc ++ ' ' :: rest) = some (utf8Len dc) :=
    findChar_append (fun x hx => by rw [hc x hx]; rfl) (by rfl)
  simp only [Option.bind_eq_bind, Option.bind_some, hd, Option.getD_some]
  rw [if_pos]
  · rw [show utf8Len "line ".toList + utf8Len dl + 1 + utf8Len dc + 1 =
        utf8Len ("line ".toList ++ dl ++ ":".toList ++ dc ++ " ".toList) by
          simp only [utf8Len_append]
          rfl,
      show "line ".toList ++ (dl ++ [':'] ++ (dc ++ ' ' :: rest)) =
        ("line ".toList ++ dl ++ ":".toList ++ dc ++ " ".toList) ++ rest by simp,
      sliceTo_append]
  · have h1 : (':' : Char).utf8Size = 1 := rfl
    have h2 : (' ' : Char).utf8Size = 1 := rfl
    simp only [utf8Len_append, utf8Len, h1, h2]
    omega

/-- A refined error: it is at a character of the text, its span can be shown, and its message begins
with the given position. -/
structure Refined (s : List Char) (l c : Nat) (x : SyntaxErr) : Prop where
  place : Boundary s x.offset
  fits : x.offset + x.length ≤ utf8Len s + 1
  starts : ∃ rest, x.message = linePart l c ++ rest

/-- What is found, if anything, is a refined error. -/
def Found (s : List Char) (l c : Nat) (r : Option SyntaxErr) : Prop :=
  ∀ x, r = some x → Refined s l c x

theorem Found.nothing {s : List Char} {l c : Nat} : Found s l c none := fun _ h => by cases h

theorem Found.it {s : List Char} {l c : Nat} {x : SyntaxErr} (h : Refined s l c x) :
    Found s l c (some x) := fun _ hx => by cases hx; exact h

theorem linePrefix_ok {s : List Char} {l c : Nat} {e : SyntaxErr} (h : Refined s l c e) :
    linePrefix e.message = some (linePart l c) := by
  obtain ⟨rest, hr⟩ := h.starts
  rw [hr, linePrefix_linePart]

theorem detectEmptyUnion_ok {s : List Char} {l c : Nat} {e : SyntaxErr} (h : Refined s l c e) :
    Ok (detectEmptyUnion e s) (Found s l c) := by
  unfold detectEmptyUnion
  refine .bind (sliceTo_ok h.place) fun before hb => ?_
  obtain ⟨q, hs, hlen⟩ := hb
  split
  · exact .pure .nothing
  · simp only
    split
    · exact .pure .nothing
    · rename_i h1
      obtain ⟨p, hp⟩ := endsWith_append.1 (by simpa using h1)
      obtain ⟨hc1, hc2⟩ := cut_ok hp (n := 1) rfl
      rw [hc1]
      simp only [Option.bind_eq_bind, Option.bind_some]
      rw [hc2]
      simp only [Option.bind_some]
      split
      · exact .pure .nothing
      · rename_i h2
        obtain ⟨p', hp'⟩ := endsWith_append.1 (by simpa using h2)
        obtain ⟨hc3, -⟩ := cut_ok hp' (n := 5) rfl
        obtain ⟨w1, hw1, -⟩ := trimEnd_append before
        obtain ⟨w2, hw2, -⟩ := trimEnd_append p
        rw [hp'] at hw2
        rw [hp, hw2] at hw1
        rw [hw1] at hs hlen
        have hle : utf8Len p' ≤ e.offset := by
          rw [← hlen]
          simp only [List.append_assoc, utf8Len_append]
          omega
        rw [hc3]
        simp only [Option.bind_some]
        rw [checkedSub_le (by omega), linePrefix_ok h]
        refine .pure (.it ⟨⟨p', _, by rw [hs]; simp only [List.append_assoc]; rfl, rfl⟩, ?_, _, rfl⟩)
        have := h.fits
        simp only
        omega

theorem detectEmptyTypeParameter_ok {s : List Char} {l c : Nat} {e : SyntaxErr}
    (h : Refined s l c e) : Ok (detectEmptyTypeParameter e s) (Found s l c) := by
  unfold detectEmptyTypeParameter
  split
  · exact .pure .nothing
  · split
    · exact .pure .nothing
    · refine .bind (sliceTo_ok h.place) fun before hb => ?_
      obtain ⟨q, hs, hlen⟩ := hb
      simp only
      split
      · exact .pure .nothing
      · rename_i h1
        obtain ⟨p, hp⟩ := endsWith_append.1 (by simpa using h1)
        obtain ⟨hc1, hc2⟩ := cut_ok hp (n := 1) rfl
        rw [hc1]
        simp only [Option.bind_eq_bind, Option.bind_some]
        rw [hc2]
        simp only [Option.bind_some]
        split
        · exact .pure .nothing
        · rename_i kw hkw
          have hend : endsWith kw (trimEnd p) = true := by
            split at hkw
            · cases hkw; assumption
            · split at hkw
              · cases hkw; assumption
              · cases hkw
          obtain ⟨p', hp'⟩ := endsWith_append.1 hend
          obtain ⟨hc3, -⟩ := cut_ok hp' (n := utf8Len kw.toList) rfl
          obtain ⟨w1, hw1, -⟩ := trimEnd_append before
          obtain ⟨w2, hw2, -⟩ := trimEnd_append p
          rw [hp'] at hw2
          rw [hp, hw2] at hw1
          rw [hw1] at hs hlen
          have hle : utf8Len p' ≤ e.offset := by
            rw [← hlen]
            simp only [List.append_assoc, utf8Len_append]
            omega
          rw [hc3]
          simp only [Option.bind_some]
          rw [checkedSub_le (by omega), linePrefix_ok h]
          refine .pure (.it ⟨⟨p', _, by rw [hs]; simp only [List.append_assoc]; rfl, rfl⟩, ?_, _, by
            simp only [List.append_assoc]; rfl⟩)
          have := h.fits
          simp only
          omega

theorem detectFixedNonInteger_ok {s : List Char} {l c : Nat} {e : SyntaxErr} (h : Refined s l c e) :
    Ok (detectFixedNonInteger e s) (Found s l c) := by
  unfold detectFixedNonInteger
  split
  · exact .pure .nothing
  · refine .bind (sliceTo_ok h.place) fun before hb => ?_
    obtain ⟨q, hs, hlen⟩ := hb
    split
    · exact .pure .nothing
    · rename_i paren hparen
      obtain ⟨a, b, rfl, rfl, -⟩ := rfindChar_some hparen
      rw [sliceTo_append]
      refine .bind (P := fun _ => True) (.pure trivial) fun x _ => ?_
      refine .bind (lastWord_ok false _) fun r _ => ?_
      split
      · exact .pure .nothing
      · split
        · exact .pure .nothing
        · have h1 : ('(' : Char).utf8Size = 1 := rfl
          have hoff : e.offset = utf8Len a + 1 + utf8Len b := by
            rw [← hlen, utf8Len_append]
            simp only [utf8Len, h1]
            omega
          have ha : utf8Len (a ++ ['(']) = utf8Len a + 1 := by
            rw [utf8Len_append]; rfl
          rw [slice_ok (p := a ++ ['(']) (w := b) (q := q) (by rw [hs]; simp) ha hoff.symm,
            linePrefix_ok h, checkedSub_le (by omega)]
          simp only [Option.bind_eq_bind, Option.bind_some]
          rw [checkedSub_le (by omega)]
          refine .pure (.it ⟨⟨a ++ ['('], b ++ q, by rw [hs]; simp, ha⟩, ?_, _, by
            simp only [List.append_assoc]; rfl⟩)
          have hle : e.offset ≤ utf8Len s := by
            rw [hs, utf8Len_append, hlen]
            omega
          simp only
          split <;> omega

theorem sliceOne {w : List Char} (h : w ≠ []) (ha : ∀ c ∈ w, c.utf8Size = 1) :
    Ok (sliceTo w 1) (fun _ => True) ∧ Ok (sliceFrom w 1) fun _ => True := by
  cases w with
  | nil => exact absurd rfl h
  | cons c w =>
    have h1 := ha c (List.mem_cons_self ..)
    have hb : Boundary (c :: w) 1 := ⟨[c], w, rfl, by simp [utf8Len, h1]⟩
    exact ⟨(sliceTo_ok hb).mono fun _ _ => trivial, (sliceFrom_ok hb).mono fun _ _ => trivial⟩

theorem wordChar_size {bq : Bool} {c : Char} (h : wordChar bq c = true) : c.utf8Size = 1 := by
  unfold wordChar at h
  simp only [Bool.or_eq_true, Bool.and_eq_true, beq_iff_eq] at h
  rcases h with (h | rfl) | ⟨_, rfl⟩
  · exact alnum_size h
  · rfl
  · rfl

theorem detectMissingName_ok {s : List Char} {l c : Nat} {e : SyntaxErr} (h : Refined s l c e) :
    Ok (detectMissingName e s) (Found s l c) := by
  unfold detectMissingName
  split
  · exact .pure .nothing
  · split
    · exact .pure .nothing
    · refine .bind (sliceTo_ok h.place) fun before hb => ?_
      simp only
      refine .bind (lastWord_ok false _) fun r hr => ?_
      split
      · exact .pure .nothing
      · rename_i start bf kw
        obtain ⟨-, -, hne, hw, -⟩ := hr.1 _ rfl
        obtain ⟨o1, o2⟩ := sliceOne hne fun c hc => wordChar_size (hw c hc)
        split
        · exact .pure .nothing
        · rw [linePrefix_ok h]
          refine .bind (P := fun p => p = linePart l c) (.pure rfl) fun pre hpre => ?_
          subst hpre
          refine .bind o1 fun _ _ => .bind o2 fun _ _ => ?_
          exact .pure (.it ⟨h.place, h.fits, _, by simp only [List.append_assoc]; rfl⟩)

theorem enumBefore_ok {s head q : List Char} (hs : s = head ++ q) (ps : List Nat)
    (hp : ∀ n ∈ ps, n ∈ matchIndices "enum".toList head) :
    Ok (enumBefore s (utf8Len head) ps) fun _ => True := by
  induction ps with
  | nil => exact .pure trivial
  | cons n ps ih =>
    simp only [enumBefore]
    obtain ⟨a, b, rfl, rfl⟩ := matchIndices_mem (hp n (List.mem_cons_self ..))
    rw [slice_ok (p := a ++ "enum".toList) (w := b) (q := q) hs (by rw [utf8Len_append]; rfl)
      (by rw [utf8Len_append, utf8Len_append a]; rfl)]
    show Ok (if _ then _ else _) _
    split
    · exact .pure trivial
    · exact ih fun n hn => hp n (List.mem_cons_of_mem _ hn)

theorem detectTrailingComma_ok {s : List Char} {l c : Nat} {e : SyntaxErr} (h : Refined s l c e) :
    Ok (detectTrailingComma e s) (Found s l c) := by
  unfold detectTrailingComma
  split
  · exact .pure .nothing
  · split
    · exact .pure .nothing
    · refine .bind (sliceTo_ok h.place) fun head hb => ?_
      obtain ⟨q, hs, hlen⟩ := hb
      simp only
      split
      · exact .pure .nothing
      · rename_i h1
        obtain ⟨p, hp⟩ := endsWith_append.1 (by simpa using h1)
        obtain ⟨hc1, hc2⟩ := cut_ok hp (n := 1) rfl
        rw [hc1]
        simp only [Option.bind_eq_bind, Option.bind_some]
        rw [hc2]
        simp only [Option.bind_some]
        rw [← hlen]
        refine .bind (enumBefore_ok hs _ fun n hn => hn) fun has _ => ?_
        split
        · exact .pure .nothing
        · refine .bind (lastWord_ok false _) fun sym _ => ?_
          rw [linePrefix_ok h]
          obtain ⟨w1, hw1, -⟩ := trimEnd_append head
          rw [hp] at hw1
          rw [hw1] at hs
          refine .pure (.it ⟨⟨p, _, by rw [hs]; simp only [List.append_assoc]; rfl, rfl⟩, ?_, _, rfl⟩)
          have : utf8Len ",".toList = 1 := rfl
          simp only [hs, utf8Len_append, this]
          omega

theorem detectMisspelled_ok {s : List Char} {l c : Nat} {e : SyntaxErr} (h : Refined s l c e) :
    Ok (detectMisspelled e s) (Found s l c) := by
  unfold detectMisspelled
  refine .bind (sliceTo_ok h.place) fun before hb => ?_
  obtain ⟨q, hs, hlen⟩ := hb
  refine .bind (lastWord_ok true _) fun r hr => ?_
  split
  · exact .pure .nothing
  · rename_i st bn nm
    obtain ⟨hr1, -⟩ := hr.1 _ rfl
    refine .bind (lastWord_ok false _) fun r' hr' => ?_
    split
    · exact .pure .nothing
    · rename_i st' bn' cand
      obtain ⟨hr2, hr3, -⟩ := hr'.1 _ rfl
      refine .bind (suggestKeyword_ok _) fun k _ => ?_
      split
      · exact .pure .nothing
      · rw [linePrefix_ok h]
        obtain ⟨w1, hw1, -⟩ := trimEnd_append before
        obtain ⟨w2, hw2, -⟩ := trimEnd_append bn
        simp only at hr1 hr2 hr3
        rw [hr1, hw2, hr2] at hw1
        rw [hw1] at hs
        refine .pure (.it ⟨⟨bn', _, by rw [hs]; simp only [List.append_assoc]; rfl, hr3⟩, ?_, _, by
          simp only [List.append_assoc]; rfl⟩)
        simp only [hs, utf8Len_append, ← hr3]
        omega

end Avdl

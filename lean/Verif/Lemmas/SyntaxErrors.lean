import Verif.SyntaxErrors
import Verif.Lemmas.Text
import Verif.Lemmas.JsonPretty
import Verif.Props.Suggest
import Verif.Props.Spans
import Verif.Spec.SyntaxErrors
/-!
# Lemmas for syntax errors: nothing panics, and the places
-/

namespace Avdl
open Spec

/-- There is a result, with the property. -/
def Ok {α : Type} (x : Option α) (P : α → Prop) : Prop := ∃ r, x = some r ∧ P r

theorem Ok.pure {α : Type} {P : α → Prop} {r : α} (h : P r) : Ok (some r) P := ⟨r, rfl, h⟩

theorem Ok.bind {α β : Type} {x : Option α} {f : α → Option β} {P : α → Prop} {Q : β → Prop}
    (h : Ok x P) (h' : ∀ r, P r → Ok (f r) Q) : Ok (x >>= f) Q := by
  obtain ⟨r, rfl, hr⟩ := h
  exact h' r hr

theorem Ok.map {α β : Type} {x : Option α} {f : α → β} {P : α → Prop} {Q : β → Prop}
    (h : Ok x P) (h' : ∀ r, P r → Q (f r)) : Ok (x.map f) Q := by
  obtain ⟨r, rfl, hr⟩ := h
  exact ⟨f r, rfl, h' r hr⟩

theorem Ok.mono {α : Type} {x : Option α} {P Q : α → Prop} (h : Ok x P) (h' : ∀ r, P r → Q r) :
    Ok x Q := by
  obtain ⟨r, hx, hr⟩ := h
  exact ⟨r, hx, h' r hr⟩

/-! ## Slices at boundaries -/

theorem sliceTo_ok {s : List Char} {n : Nat} (h : Boundary s n) :
    Ok (sliceTo s n) fun p => ∃ q, s = p ++ q ∧ utf8Len p = n := by
  obtain ⟨p, q, rfl, rfl⟩ := h
  exact ⟨p, sliceTo_append p q, q, rfl, rfl⟩

theorem sliceFrom_ok {s : List Char} {n : Nat} (h : Boundary s n) :
    Ok (sliceFrom s n) fun q => ∃ p, s = p ++ q ∧ utf8Len p = n := by
  obtain ⟨p, q, rfl, rfl⟩ := h
  exact ⟨q, sliceFrom_append p q, p, rfl, rfl⟩

theorem slice_ok {p w q : List Char} {s : List Char} {a b : Nat} (hs : s = p ++ w ++ q)
    (ha : utf8Len p = a) (hb : a + utf8Len w = b) : slice s a b = some w := by
  subst hs ha hb
  exact slice_append p w q

theorem ascii_pos {s : List Char} (h : s ≠ []) : 0 < utf8Len s := utf8Len_pos_of_ne h

/-- Cutting the last part off. -/
theorem cut_ok {s p : List Char} {pat : String} (h : s = p ++ pat.toList) {n : Nat}
    (hn : utf8Len pat.toList = n) :
    checkedSub (utf8Len s) n = some (utf8Len p) ∧ sliceTo s (utf8Len p) = some p := by
  subst h hn
  refine ⟨?_, sliceTo_append _ _⟩
  rw [checkedSub_le (by rw [utf8Len_append]; omega), utf8Len_append]
  congr 1
  omega

/-! ## Words -/

theorem wordByte_high (bq : Bool) (b : UInt8) (h : 128 ≤ b) :
    (!alnumByte b && b != 95 && !(bq && b == 96)) = true := by
  rw [UInt8.le_iff_toNat_le] at h
  have h95 : b ≠ 95 := by rintro rfl; revert h; decide
  have h96 : b ≠ 96 := by rintro rfl; revert h; decide
  have h128 : (128 : UInt8).toNat = 128 := rfl
  have ha : alnumByte b = false := by
    unfold alnumByte
    have e1 : (57 : UInt8).toNat = 57 := rfl
    have e2 : (90 : UInt8).toNat = 90 := rfl
    have e3 : (122 : UInt8).toNat = 122 := rfl
    have n1 : ¬ b ≤ 57 := by rw [UInt8.le_iff_toNat_le]; omega
    have n2 : ¬ b ≤ 90 := by rw [UInt8.le_iff_toNat_le]; omega
    have n3 : ¬ b ≤ 122 := by rw [UInt8.le_iff_toNat_le]; omega
    simp [n1, n2, n3]
  simp [ha, h95, h96]

/-- A character of a word: letter, digit, underscore or, if allowed, backquote. -/
def wordChar (bq : Bool) (c : Char) : Bool := asciiAlnum c || c == '_' || (bq && c == '`')

theorem wordByte_char (bq : Bool) (c : Char) (h : c.toNat < 128) :
    (!alnumByte (UInt8.ofNat c.toNat) && UInt8.ofNat c.toNat != 95 &&
      !(bq && UInt8.ofNat c.toNat == 96)) = !wordChar bq c := by
  have key : ∀ n : Fin 128, ∀ bq : Bool,
      (!alnumByte (UInt8.ofNat n.val) && UInt8.ofNat n.val != 95 &&
        !(bq && UInt8.ofNat n.val == 96)) = !wordChar bq (Char.ofNat n.val) := by decide +kernel
  have := key ⟨c.toNat, h⟩ bq
  simpa using this

theorem wordStart_ok (bq : Bool) (s : List Char) :
    ∃ x w, s = x ++ w ∧ utf8Len x = wordStart bq s ∧ (∀ c ∈ w, wordChar bq c = true) ∧
      (∀ y c, x = y ++ [c] → wordChar bq c = false) := by
  have key := rposition_bytes (wordByte_high bq) s
  have hw : ∀ c : Char, (c.toNat < 128 ∧ (!alnumByte (UInt8.ofNat c.toNat) &&
      UInt8.ofNat c.toNat != 95 && !(bq && UInt8.ofNat c.toNat == 96)) = false) →
      wordChar bq c = true := by
    intro c ⟨h1, h2⟩
    rw [wordByte_char bq c h1] at h2
    simpa using h2
  unfold wordStart
  split at key
  · rename_i hr
    rw [hr]
    refine ⟨[], s, rfl, rfl, fun c hc => hw c (key c hc), fun y c h => ?_⟩
    cases y <;> cases h
  · rename_i i hr
    rw [hr]
    obtain ⟨x, d, w, rfl, hl, hd, hall⟩ := key
    refine ⟨x ++ [d], w, by simp, ?_, fun c hc => hw c (hall c hc), ?_⟩
    · rw [utf8Len_append]
      simp only [utf8Len]
      omega
    · intro y c h
      obtain ⟨rfl, h'⟩ := List.append_inj' h rfl
      cases h'
      by_cases hc : d.toNat < 128
      · have := hd hc
        rw [wordByte_char bq d hc] at this
        simpa using this
      · cases hb : wordChar bq d with
        | false => rfl
        | true =>
          exfalso
          apply hc
          unfold wordChar asciiAlnum at hb
          simp only [Bool.or_eq_true, Bool.and_eq_true, beq_iff_eq] at hb
          rcases hb with (hb | rfl) | ⟨_, rfl⟩
          · simp only [Char.isAlphanum, Char.isAlpha, Char.isUpper, Char.isLower, Char.isDigit,
              Bool.or_eq_true, Bool.and_eq_true, decide_eq_true_eq, UInt32.le_iff_toNat_le] at hb
            show d.val.toNat < 128
            have e1 : 'Z'.val.toNat = 90 := rfl
            have e2 : 'z'.val.toNat = 122 := rfl
            have e3 : '9'.val.toNat = 57 := rfl
            omega
          · decide
          · decide

/-- The last word of a text: all of it that is at the end. -/
def IsLastWord (bq : Bool) (s : List Char) (r : Nat × List Char × List Char) : Prop :=
  s = r.2.1 ++ r.2.2 ∧ utf8Len r.2.1 = r.1 ∧ r.2.2 ≠ [] ∧ (∀ c ∈ r.2.2, wordChar bq c = true) ∧
    ∀ y c, r.2.1 = y ++ [c] → wordChar bq c = false

theorem lastWord_ok (bq : Bool) (s : List Char) :
    Ok (lastWord bq s) fun r =>
      (∀ x, r = some x → IsLastWord bq s x) ∧
      (r = none → ∀ y c, s = y ++ [c] → wordChar bq c = false) := by
  obtain ⟨x, w, hs, hl, hw, hx⟩ := wordStart_ok bq s
  unfold lastWord
  simp only
  rw [← hl]
  subst hs
  split
  · rename_i h
    have : w = [] := by
      cases w with
      | nil => rfl
      | cons c w =>
        have := c.utf8Size_pos
        rw [utf8Len_append] at h
        simp only [utf8Len] at h
        omega
    subst this
    refine .pure ⟨fun _ h => (by cases h), fun _ y c h => hx y c ?_⟩
    simpa using h
  · rename_i h
    rw [sliceTo_append, slice_ok (p := x) (w := w) (q := []) (by simp) rfl
      (by rw [utf8Len_append])]
    refine .pure ⟨fun r hr => ?_, fun h => by cases h⟩
    cases hr
    refine ⟨rfl, rfl, ?_, hw, hx⟩
    rintro rfl
    simp at h

/-! ## Messages -/

theorem noViableInput_ok (msg : List Char) : Ok (noViableInput msg) fun _ => True := by
  unfold noViableInput
  split
  · exact .pure trivial
  · rename_i p hp
    obtain ⟨a, b, rfl, rfl⟩ := findStr_some hp
    refine .bind (sliceFrom_ok ⟨a ++ "no viable alternative at input '".toList, b, rfl, by
      rw [utf8Len_append]; rfl⟩) fun rest _ => ?_
    split
    · exact .pure trivial
    · rename_i e he
      obtain ⟨a, b, rfl, rfl⟩ := findStr_some he
      exact .map (sliceTo_ok ⟨a, ['\''] ++ b, by simp, rfl⟩) fun _ _ => trivial

theorem toLower_size (c : Char) : c.toLower.utf8Size = c.utf8Size := by
  unfold Char.toLower
  split
  · rename_i h
    have h1 := h.1
    have h2 := h.2
    simp only [ge_iff_le, UInt32.le_iff_toNat_le] at h1 h2
    have e1 : ('A'.val : UInt32).toNat = 65 := rfl
    have e2 : ('Z'.val : UInt32).toNat = 90 := rfl
    have e3 : ('a'.val - 'A'.val : UInt32).toNat = 32 := rfl
    have e4 : (127 : UInt32).toNat = 127 := rfl
    have hc : c.utf8Size = 1 := by
      rw [Char.utf8Size_eq_one_iff, UInt32.le_iff_toNat_le]
      omega
    rw [hc, Char.utf8Size_eq_one_iff, UInt32.le_iff_toNat_le]
    show (c.val + ('a'.val - 'A'.val)).toNat ≤ _
    rw [UInt32.toNat_add, e3]
    omega
  · rfl

theorem asciiLower_len (s : List Char) : utf8Len (asciiLower s) = utf8Len s := by
  induction s with
  | nil => rfl
  | cons c s ih =>
    simp only [asciiLower, List.map_cons, utf8Len, toLower_size] at ih ⊢
    omega

theorem splitTrailingKeyword_ok (merged : List Char) :
    Ok (splitTrailingKeyword merged) fun _ => True := by
  unfold splitTrailingKeyword
  generalize avroKeywords = kws
  induction kws with
  | nil => exact .pure trivial
  | cons kw kws ih =>
    simp only [splitKeywordLoop]
    split
    · rename_i h
      simp only [Bool.and_eq_true] at h
      obtain ⟨p, hp⟩ := endsWith_append.1 h.1
      obtain ⟨a, b, rfl, ha, hb⟩ := List.map_eq_append_iff.1 hp
      have hlen : utf8Len b = utf8Len kw.toList := by
        rw [← asciiLower_len b]
        exact congrArg utf8Len hb
      rw [checkedSub_le (by rw [utf8Len_append]; omega), utf8Len_append]
      show Ok (sliceTo _ _) _
      exact (sliceTo_ok ⟨a, b, rfl, by omega⟩).mono fun _ _ => trivial
    · exact ih

theorem takeWhile_ascii_len (p : Char → Bool) (hp : ∀ c, p c = true → c.utf8Size = 1)
    (s : List Char) : utf8Len (s.takeWhile p) = (s.takeWhile p).length := by
  induction s with
  | nil => rfl
  | cons c s ih =>
    simp only [List.takeWhile_cons]
    split
    · rename_i h
      simp only [utf8Len, List.length_cons, hp c h]
      omega
    · rfl

theorem alnum_size {c : Char} (h : asciiAlnum c = true) : c.utf8Size = 1 := by
  rw [Char.utf8Size_eq_one_iff]
  unfold asciiAlnum at h
  simp only [Char.isAlphanum, Char.isAlpha, Char.isUpper, Char.isLower, Char.isDigit,
    Bool.or_eq_true, Bool.and_eq_true, decide_eq_true_eq, UInt32.le_iff_toNat_le] at h ⊢
  have e1 : 'Z'.val.toNat = 90 := rfl
  have e2 : 'z'.val.toNat = 122 := rfl
  have e3 : '9'.val.toNat = 57 := rfl
  have e4 : (127 : UInt32).toNat = 127 := rfl
  omega

theorem annotationLoop_ok (input : List Char) : ∀ (n : Nat) (p q : List Char), input = p ++ q →
    p.length < n → Ok (annotationLoop input n (utf8Len p)) fun _ => True := by
  intro n
  induction n with
  | zero => intro p q _ h; omega
  | succ n ih =>
    intro p q hs hn
    unfold annotationLoop
    subst hs
    rw [sliceTo_append]
    show Ok (match rfindChar '@' p with
      | none => _
      | some at_ => _) _
    split
    · exact .pure trivial
    · rename_i at_ hat
      obtain ⟨a, b, rfl, rfl, -⟩ := rfindChar_some hat
      have hrec : Ok (annotationLoop (a ++ '@' :: b ++ q) n (utf8Len a)) fun _ => True :=
        ih a ('@' :: b ++ q) (by simp) (by simp at hn; omega)
      refine .bind (sliceFrom_ok ⟨a ++ ['@'], b ++ q, by simp, by rw [utf8Len_append]; rfl⟩)
        fun after _ => ?_
      simp only
      have hl := takeWhile_ascii_len (fun c => asciiAlnum c || c == '_' || c == '-') (by
        intro c hc
        simp only [Bool.or_eq_true, beq_iff_eq] at hc
        rcases hc with (hc | rfl) | rfl
        · exact alnum_size hc
        · rfl
        · rfl) after
      have hb : Boundary after
          (after.takeWhile fun c => asciiAlnum c || c == '_' || c == '-').length :=
        ⟨_, _, (List.takeWhile_append_dropWhile (p := fun c => asciiAlnum c || c == '_' || c == '-')
          (l := after)).symm, hl⟩
      split
      · refine .bind (sliceTo_ok hb) fun ident _ => .bind (sliceFrom_ok hb) fun afterIdent _ => ?_
        split
        · exact .map (splitTrailingKeyword_ok _) fun _ _ => trivial
        · split
          · exact .pure trivial
          · exact hrec
      · split
        · exact .pure trivial
        · exact hrec

theorem annotationName_ok (input : List Char) : Ok (annotationName input) fun _ => True :=
  annotationLoop_ok input _ input [] (by simp) (Nat.lt_succ_self _)

theorem trailingIdentifier_ok (input : List Char) : Ok (trailingIdentifier input) fun _ => True := by
  unfold trailingIdentifier
  exact .bind (lastWord_ok false input) fun _ _ => .pure trivial

theorem expectingTokens_ok (msg : List Char) :
    Ok (expectingTokens msg) fun r => ∀ tokens, r = some tokens → '}' ∉ tokens := by
  unfold expectingTokens
  split
  · exact .pure fun _ h => by cases h
  · rename_i p hp
    obtain ⟨a, b, rfl, rfl⟩ := findStr_some hp
    rw [show utf8Len a + 11 = utf8Len (a ++ "expecting {".toList) by rw [utf8Len_append]; rfl,
      sliceFrom_append]
    show Ok (match findStr ['}'] b with
      | none => _
      | some e => _) _
    split
    · exact .pure fun _ h => by cases h
    · rename_i e he
      have he' : findChar (· = '}') b = some e := by
        rw [← he]
        clear he hp
        induction b with
        | nil => rfl
        | cons c b ih =>
          simp only [findStr, findChar, ih, List.isPrefixOf, Bool.and_true, beq_iff_eq,
            decide_eq_true_eq, eq_comm (a := c)]
      obtain ⟨x, c, y, rfl, rfl, -, hx⟩ := findChar_some he'
      rw [slice_ok (p := a ++ "expecting {".toList) (w := x) (q := c :: y) (by simp) rfl rfl]
      refine .pure fun tokens h => ?_
      cases h
      intro hm
      simpa using hx _ hm

theorem quotedToken_ok (msg : List Char) (pre : String) : Ok (quotedToken msg pre) fun _ => True := by
  unfold quotedToken
  split
  · exact .pure trivial
  · rename_i p hp
    obtain ⟨a, b, rfl, rfl⟩ := findStr_some hp
    refine .bind (sliceFrom_ok ⟨a ++ pre.toList, b, rfl, utf8Len_append _ _⟩) fun rest _ => ?_
    split
    · exact .pure trivial
    · rename_i h
      simp only [Bool.not_eq_true, Bool.not_eq_false'] at h
      obtain ⟨q, rfl⟩ := startsWith_append.1 (by simpa using h)
      rw [show 1 = utf8Len "'".toList from rfl, sliceFrom_append]
      show Ok (match findStr ['\''] q with
        | none => _
        | some e => _) _
      split
      · exact .pure trivial
      · rename_i e he
        obtain ⟨x, y, rfl, rfl⟩ := findStr_some he
        rw [slice_ok (p := "'".toList) (w := x) (q := ['\''] ++ y) (by simp) rfl rfl]
        exact .pure trivial

/-! ## Loops over bytes, by characters -/

theorem byte_eq {c d : Char} (hc : c.toNat < 128) (hd : d.toNat < 128) :
    UInt8.ofNat c.toNat = UInt8.ofNat d.toNat ↔ c = d := by
  constructor
  · intro h
    have := congrArg UInt8.toNat h
    simp only [UInt8.toNat_ofNat'] at this
    apply Char.ext
    apply UInt32.toNat.inj
    show c.toNat = d.toNat
    omega
  · rintro rfl; rfl

theorem high_ne {b : UInt8} (h : 128 ≤ b) {d : Char} (hd : d.toNat < 128) :
    b ≠ UInt8.ofNat d.toNat := by
  rintro rfl
  rw [UInt8.le_iff_toNat_le, UInt8.toNat_ofNat'] at h
  have : (128 : UInt8).toNat = 128 := rfl
  omega

/-- `split_token_set` by characters: the part of the present token that has been read. -/
def tokenSetChars (cur : List Char) (inQuotes : Bool) : List Char → List (List Char)
  | [] => if (trim cur).isEmpty then [] else [trim cur]
  | c :: cs =>
      if c = '\'' then tokenSetChars (cur ++ [c]) (!inQuotes) cs
      else if c = ',' && !inQuotes then
        if (trim cur).isEmpty then tokenSetChars [] inQuotes cs
        else trim cur :: tokenSetChars [] inQuotes cs
      else tokenSetChars (cur ++ [c]) inQuotes cs

theorem tokenSetLoop_high (set : List Char) (bs : List UInt8) (h : ∀ b ∈ bs, 128 ≤ b) :
    ∀ (rest : List UInt8) (i start : Nat) (q : Bool),
      tokenSetLoop set (bs ++ rest) i start q = tokenSetLoop set rest (i + bs.length) start q := by
  induction bs with
  | nil => intro rest i start q; rfl
  | cons b bs ih =>
    intro rest i start q
    have hb := h b (List.mem_cons_self ..)
    have h1 : b ≠ 39 := high_ne hb (d := '\'') (by decide)
    have h2 : b ≠ 44 := high_ne hb (d := ',') (by decide)
    simp only [List.cons_append, tokenSetLoop, h1, h2, decide_false, Bool.false_and,
      Bool.false_eq_true, if_false]
    rw [ih (fun x hx => h x (List.mem_cons_of_mem _ hx))]
    simp only [List.length_cons]
    congr 1
    omega

theorem tokenSetLoop_chars (rest : List Char) : ∀ (a cur : List Char) (q : Bool),
    tokenSetLoop (a ++ cur ++ rest) (bytesOf rest) (utf8Len (a ++ cur)) (utf8Len a) q =
      some (tokenSetChars cur q rest) := by
  induction rest with
  | nil =>
    intro a cur q
    simp only [bytesOf, List.flatMap_nil, List.append_nil, tokenSetLoop, sliceFrom_append]
    rfl
  | cons c rest ih =>
    intro a cur q
    rw [bytesOf_cons]
    have hstep : ∀ q', tokenSetLoop (a ++ cur ++ c :: rest) (bytesOf rest)
        (utf8Len (a ++ cur) + c.utf8Size) (utf8Len a) q' =
        some (tokenSetChars (cur ++ [c]) q' rest) := by
      intro q'
      rw [← ih a (cur ++ [c]) q']
      congr 1
      · simp
      · simp only [utf8Len_append, utf8Len]; omega
    by_cases hc : c.toNat < 128
    · obtain ⟨he, hs⟩ := encode_ascii hc
      rw [he]
      have e1 : (UInt8.ofNat c.toNat = 39) = (c = '\'') := propext (byte_eq hc (d := '\'') (by decide))
      have e2 : (UInt8.ofNat c.toNat = 44) = (c = ',') := propext (byte_eq hc (d := ',') (by decide))
      rw [hs] at hstep
      simp only [List.singleton_append, tokenSetLoop, tokenSetChars, e1, e2]
      split
      · exact hstep _
      · split
        · rw [slice_ok (p := a) (w := cur) (q := c :: rest) rfl rfl (utf8Len_append a cur).symm]
          have := ih (a ++ cur ++ [c]) [] q
          simp only [List.append_nil] at this
          rw [show a ++ cur ++ [c] ++ rest = a ++ cur ++ c :: rest by simp,
            show utf8Len (a ++ cur ++ [c]) = utf8Len (a ++ cur) + 1 by
              rw [utf8Len_append (a ++ cur)]; simp only [utf8Len, hs]] at this
          show (do
            let rest ← tokenSetLoop _ _ _ _ _
            some (if (trim cur).isEmpty then rest else trim cur :: rest)) = _
          rw [this]
          show some _ = some _
          congr 1
        · exact hstep _
    · rw [tokenSetLoop_high _ _ (encode_high hc)]
      rw [String.length_utf8EncodeChar, hstep]
      have n1 : c ≠ '\'' := by rintro rfl; exact hc (by decide)
      have n2 : c ≠ ',' := by rintro rfl; exact hc (by decide)
      simp [tokenSetChars, n1, n2]

theorem splitTokenSet_chars (set : List Char) :
    splitTokenSet set = some (tokenSetChars [] false set) := by
  have := tokenSetLoop_chars set [] [] false
  simpa [utf8Len, splitTokenSet] using this

/-- `find_closing_brace` by characters: what is before the brace. -/
def closingBraceChars (inQuotes : Bool) : List Char → Option (List Char)
  | [] => none
  | c :: cs =>
      if c = '\'' then (closingBraceChars (!inQuotes) cs).map (c :: ·)
      else if c = '}' && !inQuotes then some []
      else (closingBraceChars inQuotes cs).map (c :: ·)

theorem closingBraceLoop_high (bs : List UInt8) (h : ∀ b ∈ bs, 128 ≤ b) :
    ∀ (rest : List UInt8) (i : Nat) (q : Bool),
      closingBraceLoop (bs ++ rest) i q = closingBraceLoop rest (i + bs.length) q := by
  induction bs with
  | nil => intro rest i q; rfl
  | cons b bs ih =>
    intro rest i q
    have hb := h b (List.mem_cons_self ..)
    have h1 : b ≠ 39 := high_ne hb (d := '\'') (by decide)
    have h2 : b ≠ 125 := high_ne hb (d := '}') (by decide)
    simp only [List.cons_append, closingBraceLoop, h1, h2, decide_false, Bool.false_and,
      Bool.false_eq_true, if_false]
    rw [ih (fun x hx => h x (List.mem_cons_of_mem _ hx))]
    simp only [List.length_cons]
    congr 1
    omega

theorem closingBraceLoop_chars (s : List Char) : ∀ (i : Nat) (q : Bool),
    closingBraceLoop (bytesOf s) i q = (closingBraceChars q s).map fun x => i + utf8Len x := by
  induction s with
  | nil => intro i q; rfl
  | cons c s ih =>
    intro i q
    rw [bytesOf_cons]
    have hstep : ∀ q', closingBraceLoop (bytesOf s) (i + c.utf8Size) q' =
        ((closingBraceChars q' s).map (c :: ·)).map fun x => i + utf8Len x := by
      intro q'
      rw [ih, Option.map_map]
      congr 1
      funext x
      simp only [Function.comp, utf8Len]
      omega
    by_cases hc : c.toNat < 128
    · obtain ⟨he, hs⟩ := encode_ascii hc
      rw [he]
      have e1 : (UInt8.ofNat c.toNat = 39) = (c = '\'') := propext (byte_eq hc (d := '\'') (by decide))
      have e2 : (UInt8.ofNat c.toNat = 125) = (c = '}') := propext (byte_eq hc (d := '}') (by decide))
      rw [hs] at hstep
      simp only [List.singleton_append, closingBraceLoop, closingBraceChars, e1, e2]
      split
      · exact hstep _
      · split
        · rfl
        · exact hstep _
    · rw [closingBraceLoop_high _ (encode_high hc), String.length_utf8EncodeChar, hstep]
      have n1 : c ≠ '\'' := by rintro rfl; exact hc (by decide)
      have n2 : c ≠ '}' := by rintro rfl; exact hc (by decide)
      simp [closingBraceChars, n1, n2]

theorem closingBraceChars_some {s x : List Char} : ∀ {q : Bool}, closingBraceChars q s = some x →
    ∃ y, s = x ++ '}' :: y := by
  induction s generalizing x with
  | nil => intro q h; cases h
  | cons c s ih =>
    intro q h
    simp only [closingBraceChars] at h
    split at h
    · obtain ⟨z, hz, rfl⟩ := Option.map_eq_some_iff.1 h
      obtain ⟨y, rfl⟩ := ih hz
      exact ⟨y, rfl⟩
    · split at h
      · rename_i hb
        simp only [Bool.and_eq_true, decide_eq_true_eq] at hb
        cases h
        exact ⟨s, by rw [hb.1]; rfl⟩
      · obtain ⟨z, hz, rfl⟩ := Option.map_eq_some_iff.1 h
        obtain ⟨y, rfl⟩ := ih hz
        exact ⟨y, rfl⟩

/-- What `find_closing_brace` finds. -/
theorem findClosingBrace_some {s : List Char} {n : Nat} (h : findClosingBrace s = some n) :
    ∃ x y, s = x ++ '}' :: y ∧ utf8Len x = n ∧ closingBraceChars false s = some x := by
  unfold findClosingBrace at h
  rw [closingBraceLoop_chars] at h
  obtain ⟨x, hx, rfl⟩ := Option.map_eq_some_iff.1 h
  obtain ⟨y, rfl⟩ := closingBraceChars_some hx
  exact ⟨x, y, rfl, (Nat.zero_add _).symm, hx⟩

/-! ## Rewriting -/

theorem suggestKeyword_ok (w : String) : Ok (suggestKeyword w) fun _ => True := by
  obtain ⟨r, hr, -⟩ := Props.C32_keyword w
  exact ⟨r, hr, trivial⟩

theorem unexpectedToken_ok (t : List Char) (help : Option (List Char)) (a b : Bool) :
    Ok (unexpectedToken t help a b) fun _ => True := by
  unfold unexpectedToken
  split
  · split <;> exact .pure trivial
  · split
    · exact .pure trivial
    · refine .bind (P := fun _ => True) ?_ fun r _ => ?_
      · split
        · exact suggestKeyword_ok _
        · exact .pure trivial
      · split <;> exact .pure trivial

theorem simplifyExpecting_ok (msg : List Char) : Ok (simplifyExpecting msg) fun _ => True := by
  unfold simplifyExpecting
  refine .bind (expectingTokens_ok msg) fun r _ => ?_
  split
  · exact .pure trivial
  · split
    · exact .pure trivial
    · simp only
      refine .bind (P := fun _ => True) ?_ fun brace _ => ?_
      · unfold expectsCloseBrace
        rw [splitTokenSet_chars]
        exact .pure trivial
      · refine .bind (quotedToken_ok _ _) fun r _ => ?_
        split
        · exact .map (unexpectedToken_ok _ _ _ _) fun _ _ => trivial
        · refine .bind (quotedToken_ok _ _) fun r _ => ?_
          split
          · exact .map (unexpectedToken_ok _ _ _ _) fun _ _ => trivial
          · exact .pure trivial

theorem enrich_ok (msg : List Char) : Ok (enrich msg) fun _ => True := by
  unfold enrich
  refine .bind (noViableInput_ok msg) fun input _ => ?_
  refine .bind (P := fun _ => True) ?_ fun anno _ => ?_
  · split
    · exact annotationName_ok _
    · exact .pure trivial
  · split
    · split <;> exact .pure trivial
    · split
      · exact .pure trivial
      · refine .bind (P := fun _ => True) ?_ fun word _ => ?_
        · split
          · exact trailingIdentifier_ok _
          · exact .pure trivial
        · refine .bind (P := fun _ => True) ?_ fun s _ => ?_
          · split
            · exact .map (suggestKeyword_ok _) fun _ _ => trivial
            · exact .pure trivial
          · split
            · exact .pure trivial
            · split
              · exact .pure trivial
              · exact simplifyExpecting_ok msg

theorem sanitize_ok (msg : List Char) : Ok (sanitize msg) fun _ => True := by
  unfold sanitize
  split
  · exact .pure trivial
  · rename_i p hp
    obtain ⟨a, b, rfl, rfl⟩ := findStr_some hp
    rw [show utf8Len a + 11 = utf8Len (a ++ "expecting {".toList) by rw [utf8Len_append]; rfl,
      sliceFrom_append]
    show Ok (match findClosingBrace b with
      | none => _
      | some e => _) _
    split
    · exact .pure trivial
    · rename_i e he
      obtain ⟨x, y, rfl, rfl, -⟩ := findClosingBrace_some he
      rw [slice_ok (p := a ++ "expecting {".toList) (w := x) (q := '}' :: y) (by simp) rfl rfl]
      refine .bind (x := splitTokenSet x) (P := fun _ => True) ?_ fun raw _ => ?_
      · rw [splitTokenSet_chars]
        exact .pure trivial
      · simp only
        refine .bind (sliceTo_ok ⟨a, "expecting {".toList ++ (x ++ '}' :: y), by simp, rfl⟩)
          fun before _ => ?_
        refine .bind (sliceFrom_ok ⟨a ++ "expecting {".toList ++ x ++ ['}'], y, by simp, ?_⟩)
          fun after _ => .pure trivial
        rw [utf8Len_append (a ++ "expecting {".toList ++ x), utf8Len_append (a ++ "expecting {".toList)]
        rfl

theorem listen_ok (source : Option (List Char)) (e : RawError) :
    Ok (listen source e) fun x =>
      (x.offset, x.length) = syntaxErrorSpan e.offending source e.line e.column ∧
      ∃ rest, x.message = linePart e.line e.column ++ rest := by
  unfold listen
  simp only
  refine .bind (enrich_ok _) fun r _ => ?_
  split
  · exact .pure ⟨rfl, _, rfl⟩
  · exact .bind (sanitize_ok _) fun c _ => .pure ⟨rfl, _, rfl⟩

end Avdl

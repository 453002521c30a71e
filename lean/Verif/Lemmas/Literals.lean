import Verif.Literals
import Verif.Spec.Literal
/-!
# Lemmas about literals
-/

namespace Avdl
open Spec

theorem char_le_iff {a b : Char} : a ≤ b ↔ a.toNat ≤ b.toNat := by
  show a.val ≤ b.val ↔ _
  exact UInt32.le_iff_toNat_le

theorem char_of_toNat {c : Char} {n : Nat} (h : c.toNat = n) : c = Char.ofNat n := by
  rw [← h, Char.ofNat_toNat]

theorem lower_digits : ∀ d, d < 10 → "0123456789abcdef".toList[d]? = some (Char.ofNat (48 + d)) ∧
    "0123456789ABCDEF".toList[d]? = some (Char.ofNat (48 + d)) := by decide

theorem letter_digits : ∀ d, d < 16 → 10 ≤ d →
    "0123456789abcdef".toList[d]? = some (Char.ofNat (87 + d)) ∧
    "0123456789ABCDEF".toList[d]? = some (Char.ofNat (55 + d)) := by decide

theorem toNat_digits : ∀ d, d < 16 → (Char.ofNat (48 + d)).toNat = 48 + d ∧
    (Char.ofNat (87 + d)).toNat = 87 + d ∧ (Char.ofNat (55 + d)).toNat = 55 + d := by decide

theorem isDigit_cases {r d : Nat} {c : Char} (hr : r ≤ 16) (h : IsDigit r c d) :
    (d < 10 ∧ c.toNat = 48 + d) ∨ (10 ≤ d ∧ d < 16 ∧ (c.toNat = 87 + d ∨ c.toNat = 55 + d)) := by
  obtain ⟨hd, hc⟩ := h
  have hd16 : d < 16 := by omega
  have t := toNat_digits d hd16
  rcases Nat.lt_or_ge d 10 with h10 | h10
  · have l := lower_digits d h10
    left
    refine ⟨h10, ?_⟩
    rcases hc with hc | hc
    · rw [l.1] at hc; cases hc; exact t.1
    · rw [l.2] at hc; cases hc; exact t.1
  · have l := letter_digits d hd16 h10
    right
    refine ⟨h10, hd16, ?_⟩
    rcases hc with hc | hc
    · rw [l.1] at hc; cases hc; exact Or.inl t.2.1
    · rw [l.2] at hc; cases hc; exact Or.inr t.2.2

theorem digitVal_iff {r d : Nat} {c : Char} (hr : r ≤ 16) :
    digitVal r c = some d ↔ IsDigit r c d := by
  have e0 : '0'.toNat = 48 := rfl
  have e9 : '9'.toNat = 57 := rfl
  have ea : 'a'.toNat = 97 := rfl
  have ef : 'f'.toNat = 102 := rfl
  have eA : 'A'.toNat = 65 := rfl
  have eF : 'F'.toNat = 70 := rfl
  unfold digitVal
  simp only [char_le_iff, e0, e9, ea, ef, eA, eF]
  constructor
  · intro h
    split at h
    · rename_i v hv
      split at hv
      · cases hv
        split at h
        · rename_i h1 h2
          cases h
          refine ⟨h2, Or.inl ?_⟩
          rw [(lower_digits _ (by omega)).1]
          congr 1
          exact (char_of_toNat (by omega)).symm
        · cases h
      · split at hv
        · cases hv
          split at h
          · rename_i h1 h2
            cases h
            refine ⟨h2, Or.inl ?_⟩
            rw [(letter_digits _ (by omega) (by omega)).1]
            congr 1
            exact (char_of_toNat (by omega)).symm
          · cases h
        · split at hv
          · cases hv
            split at h
            · rename_i h1 h2
              cases h
              refine ⟨h2, Or.inr ?_⟩
              rw [(letter_digits _ (by omega) (by omega)).2]
              congr 1
              exact (char_of_toNat (by omega)).symm
            · cases h
          · cases hv
    · cases h
  · intro h
    have hlt := h.1
    rcases isDigit_cases hr h with ⟨h1, h2⟩ | ⟨h1, h2, h3 | h3⟩
    · rw [if_pos (by omega)]
      simp only [h2, Nat.add_sub_cancel_left, if_pos hlt]
    · rw [if_neg (by omega), if_pos (by omega)]
      simp only [h3, Nat.add_sub_cancel_left, if_pos hlt]
    · rw [if_neg (by omega), if_neg (by omega), if_pos (by omega)]
      simp only [h3, Nat.add_sub_cancel_left, if_pos hlt]

theorem digitsFrom_iff {r : Nat} (hr : r ≤ 16) (cs : List Char) (acc v : Nat) :
    digitsFrom r acc cs = some v ↔ ∃ w, Digits r cs w ∧ v = acc * r ^ cs.length + w := by
  induction cs generalizing acc with
  | nil =>
    simp only [digitsFrom, List.length_nil, Nat.pow_zero, Nat.mul_one]
    constructor
    · intro h; cases h; exact ⟨0, .nil, rfl⟩
    · rintro ⟨w, hw, rfl⟩; cases hw; rfl
  | cons c cs ih =>
    simp only [digitsFrom]
    constructor
    · intro h
      split at h
      · rename_i d hd
        obtain ⟨w, hw, rfl⟩ := (ih _).mp h
        refine ⟨_, .cons ((digitVal_iff hr).mp hd) hw, ?_⟩
        rw [List.length_cons, Nat.pow_succ', Nat.add_mul]
        simp only [Nat.mul_assoc, Nat.add_assoc]
      · cases h
    · rintro ⟨w, hw, rfl⟩
      cases hw with
      | cons hd hw =>
        rw [(digitVal_iff hr).mpr hd]
        simp only
        refine (ih _).mpr ⟨_, hw, ?_⟩
        rw [List.length_cons, Nat.pow_succ', Nat.add_mul]
        simp only [Nat.mul_assoc, Nat.add_assoc]

theorem parseDigits_of {r v : Nat} {cs : List Char} (hr : r ≤ 16) (hne : cs ≠ [])
    (h : Digits r cs v) : parseDigits r cs = some v := by
  cases cs with
  | nil => exact absurd rfl hne
  | cons c cs =>
    show digitsFrom r 0 (c :: cs) = some v
    exact (digitsFrom_iff hr _ _ _).mpr ⟨v, h, by simp⟩

theorem digits_mem {r v : Nat} {cs : List Char} (h : Digits r cs v) {c : Char} (hc : c ∈ cs) :
    ∃ d, IsDigit r c d := by
  induction h with
  | nil => cases hc
  | cons hd _ ih =>
    cases hc with
    | head => exact ⟨_, hd⟩
    | tail _ h => exact ih h

theorem digit_ne {r d : Nat} {c x : Char} (hr : r ≤ 16) (h : IsDigit r c d)
    (hx : digitVal 16 x = none) : c ≠ x := by
  rintro rfl
  have : IsDigit 16 c d := ⟨by have := h.1; omega, h.2⟩
  rw [(digitVal_iff (Nat.le_refl _)).mpr this] at hx
  cases hx

theorem digits_lt {r v : Nat} {cs : List Char} (h : Digits r cs v) : v < r ^ cs.length := by
  induction h with
  | nil => simp
  | @cons c cs d v hd _ ih =>
    rw [List.length_cons, Nat.pow_succ']
    have : (d + 1) * r ^ cs.length ≤ r * r ^ cs.length := Nat.mul_le_mul_right _ hd.1
    rw [Nat.add_mul] at this
    omega

theorem i64_unsigned {r v : Nat} {cs : List Char} (hr : r ≤ 16) (hne : cs ≠ [])
    (h : Digits r cs v) :
    i64FromStrRadix r cs = if v < 2 ^ 63 then some (v : Int) else none := by
  cases h with
  | nil => exact absurd rfl hne
  | @cons c cs d w hd h =>
    have hm : c ≠ '-' := digit_ne hr hd (by decide)
    have hp : c ≠ '+' := digit_ne hr hd (by decide)
    have hpd := parseDigits_of hr hne (Digits.cons hd h)
    unfold i64FromStrRadix
    split
    · rename_i heq; cases heq; exact absurd rfl hm
    · rename_i heq; cases heq; exact absurd rfl hp
    · rw [hpd]

theorem i64_negative {r v : Nat} {cs : List Char} (hr : r ≤ 16) (hne : cs ≠ [])
    (h : Digits r cs v) :
    i64FromStrRadix r ('-' :: cs) = if v ≤ 2 ^ 63 then some (-(v : Int)) else none := by
  simp only [i64FromStrRadix, parseDigits_of hr hne h]

/-- A leading `+` is accepted; no lexer token has one. -/
theorem i64_plus {r v : Nat} {cs : List Char} (hr : r ≤ 16) (hne : cs ≠ [])
    (h : Digits r cs v) :
    i64FromStrRadix r ('+' :: cs) = if v < 2 ^ 63 then some (v : Int) else none := by
  simp only [i64FromStrRadix, parseDigits_of hr hne h]

/-- Whatever the text, a result is a signed 64-bit integer. -/
theorem i64_range {r : Nat} {cs : List Char} {v : Int} (h : i64FromStrRadix r cs = some v) :
    FitsI64 v := by
  unfold i64FromStrRadix at h
  unfold FitsI64
  split at h <;> split at h <;> try cases h
  all_goals
    split at h
    · injection h with h; omega
    · cases h

theorem u32_unsigned {r v : Nat} {cs : List Char} (hr : r ≤ 16) (hne : cs ≠ [])
    (h : Digits r cs v) :
    u32FromStrRadix r cs = if v < 2 ^ 32 then some v else none := by
  cases h with
  | nil => exact absurd rfl hne
  | @cons c cs d w hd h =>
    have hp : c ≠ '+' := digit_ne hr hd (by decide)
    have hpd := parseDigits_of hr hne (Digits.cons hd h)
    have hm : u32FromStrRadix r (c :: cs) = match parseDigits r (c :: cs) with
        | some n => if n < 2 ^ 32 then some n else none
        | none => none := by
      unfold u32FromStrRadix
      congr 1
      split
      · rename_i heq; cases heq; exact absurd rfl hp
      · rfl
    rw [hm, hpd]

/-- Every character of a magnitude is a hexadecimal digit or the `x` of a prefix. -/
theorem magnitude_mem {n : Notation} {body : List Char} {v : Nat} (h : Magnitude n body v)
    {c : Char} (hc : c ∈ body) {x : Char} (hx : digitVal 16 x = none) (h1 : x ≠ 'x')
    (h2 : x ≠ 'X') : c ≠ x := by
  cases h with
  | decimal _ h =>
    obtain ⟨d, hd⟩ := digits_mem h hc
    exact digit_ne (by omega) hd hx
  | hex hy _ h =>
    rcases List.mem_cons.mp hc with rfl | hc
    · rintro rfl; revert hx; decide
    · rcases List.mem_cons.mp hc with rfl | hc
      · rcases hy with rfl | rfl
        · exact fun e => h1 e.symm
        · exact fun e => h2 e.symm
      · obtain ⟨d, hd⟩ := digits_mem h hc
        exact digit_ne (by omega) hd hx
  | octal h =>
    rcases List.mem_cons.mp hc with rfl | hc
    · rintro rfl; revert hx; decide
    · obtain ⟨d, hd⟩ := digits_mem h hc
      exact digit_ne (by omega) hd hx

theorem magnitude_ne_nil {n : Notation} {body : List Char} {v : Nat} (h : Magnitude n body v) :
    body ≠ [] := by cases h <;> exact List.cons_ne_nil _ _

theorem dropLongSuffix_none (cs : List Char) (h : ∀ c ∈ cs, c ≠ 'l' ∧ c ≠ 'L') :
    dropLongSuffix cs = cs := by
  unfold dropLongSuffix
  split
  · rename_i hl; exact absurd rfl (h _ (List.mem_of_getLast? hl)).1
  · rename_i hl; exact absurd rfl (h _ (List.mem_of_getLast? hl)).2
  · rfl

theorem dropLongSuffix_some (cs : List Char) {x : Char} (h : x = 'l' ∨ x = 'L') :
    dropLongSuffix (cs ++ [x]) = cs := by
  unfold dropLongSuffix
  rcases h with rfl | rfl <;> simp

theorem dropLongSuffix_token {n : Notation} {body suffix sign : List Char} {v : Nat} {long : Bool}
    (h : Magnitude n body v) (hs : sign = ['-'] ∨ sign = [])
    (hl : if long then suffix = ['l'] ∨ suffix = ['L'] else suffix = []) :
    dropLongSuffix (sign ++ body ++ suffix) = sign ++ body := by
  cases long with
  | true =>
    rcases (by simpa using hl : suffix = ['l'] ∨ suffix = ['L']) with rfl | rfl
    · exact dropLongSuffix_some _ (Or.inl rfl)
    · exact dropLongSuffix_some _ (Or.inr rfl)
  | false =>
    rw [(by simpa using hl : suffix = []), List.append_nil]
    apply dropLongSuffix_none
    intro c hc
    rcases List.mem_append.mp hc with hc | hc
    · rcases hs with rfl | rfl
      · rcases List.mem_singleton.mp hc with rfl; decide
      · cases hc
    · exact ⟨magnitude_mem h hc (by decide) (by decide) (by decide),
        magnitude_mem h hc (by decide) (by decide) (by decide)⟩

theorem digits_no_dot {r v : Nat} {cs : List Char} (hr : r ≤ 16) (h : Digits r cs v) :
    ('0' :: cs).contains '.' = false := by
  rw [Bool.eq_false_iff]
  intro hc
  rw [List.contains_iff_mem] at hc
  rcases List.mem_cons.mp hc with hc | hc
  · revert hc; decide
  · obtain ⟨d, hd⟩ := digits_mem h hc
    exact digit_ne (x := '.') hr hd (by decide) rfl

theorem digits_zero_cons {r v : Nat} {cs : List Char} (hr : 0 < r) (h : Digits r cs v) :
    Digits r ('0' :: cs) v := by
  have : Digits r ('0' :: cs) (0 * r ^ cs.length + v) := .cons ⟨hr, Or.inl rfl⟩ h
  simpa using this

theorem parseIntegerBody_pos {n : Notation} {body : List Char} {v : Nat} (h : Magnitude n body v) :
    parseIntegerBody body = if v < 2 ^ 63 then some (v : Int) else none := by
  cases h with
  | @decimal c cs v h0 h =>
    have hm : c ≠ '-' := by
      obtain ⟨d, hd⟩ := digits_mem h (List.mem_cons_self ..)
      exact digit_ne (by omega) hd (by decide)
    rw [← i64_unsigned (r := 10) (by omega) (List.cons_ne_nil _ _) h]
    unfold parseIntegerBody
    split <;> first
      | rfl
      | (rename_i heq; cases heq; exact absurd rfl h0)
      | (rename_i heq; cases heq; exact absurd rfl hm)
  | @hex x cs v hx hne h =>
    rw [← i64_unsigned (r := 16) (by omega) hne h]
    rcases hx with rfl | rfl <;> rfl
  | @octal cs v h =>
    cases cs with
    | nil => cases h; rfl
    | cons c cs =>
      have hd := h
      obtain ⟨d, hd⟩ := digits_mem hd (List.mem_cons_self ..)
      have hx : c ≠ 'x' := digit_ne (by omega) hd (by decide)
      have hX : c ≠ 'X' := digit_ne (by omega) hd (by decide)
      have hdot := digits_no_dot (r := 8) (by omega) h
      have hz := i64_unsigned (r := 8) (by omega) (List.cons_ne_nil _ _)
        (digits_zero_cons (by omega) h)
      rw [← hz]
      unfold parseIntegerBody
      split
      · rename_i heq; cases heq; exact absurd rfl hx
      · rename_i heq; cases heq; exact absurd rfl hX
      · rename_i heq; cases heq
      · rename_i heq; cases heq
      · rename_i heq; cases heq; rw [if_neg (by rw [hdot]; decide)]
      · rename_i heq; cases heq
      · rename_i h1 _; exact absurd rfl (h1 _ _)

theorem parseIntegerBody_neg {n : Notation} {body : List Char} {v : Nat} (h : Magnitude n body v) :
    parseIntegerBody ('-' :: body) =
      if v < 2 ^ 63 ∨ (n = .decimal ∧ v = 2 ^ 63) then some (-(v : Int)) else none := by
  cases h with
  | @decimal c cs v h0 h =>
    have : (v < 2 ^ 63 ∨ (Notation.decimal = .decimal ∧ v = 2 ^ 63)) ↔ v ≤ 2 ^ 63 := by
      simp only [true_and]; omega
    rw [ite_congr (propext this) (fun _ => rfl) (fun _ => rfl)]
    rw [← i64_negative (r := 10) (by omega) (List.cons_ne_nil _ _) h]
    unfold parseIntegerBody
    split <;> first
      | rfl
      | (rename_i heq; cases heq; exact absurd rfl h0)
      | (rename_i heq; cases heq)
  | @hex x cs v hx hne h =>
    have hz := i64_unsigned (r := 16) (by omega) hne h
    have : (v < 2 ^ 63 ∨ (Notation.hex = .decimal ∧ v = 2 ^ 63)) ↔ v < 2 ^ 63 := by simp
    rw [ite_congr (propext this) (fun _ => rfl) (fun _ => rfl)]
    have hm : parseIntegerBody ('-' :: '0' :: x :: cs) = (i64FromStrRadix 16 cs).map (- ·) := by
      rcases hx with rfl | rfl <;> rfl
    rw [hm, hz]
    split <;> rfl
  | @octal cs v h =>
    have : (v < 2 ^ 63 ∨ (Notation.octal = .decimal ∧ v = 2 ^ 63)) ↔ v < 2 ^ 63 := by simp
    rw [ite_congr (propext this) (fun _ => rfl) (fun _ => rfl)]
    cases cs with
    | nil => cases h; rfl
    | cons c cs =>
      obtain ⟨d, hd⟩ := digits_mem h (List.mem_cons_self ..)
      have hx : c ≠ 'x' := digit_ne (by omega) hd (by decide)
      have hX : c ≠ 'X' := digit_ne (by omega) hd (by decide)
      have hdot := digits_no_dot (r := 8) (by omega) h
      have hz := i64_unsigned (r := 8) (by omega) (List.cons_ne_nil _ _)
        (digits_zero_cons (by omega) h)
      have hm : parseIntegerBody ('-' :: '0' :: c :: cs)
          = (i64FromStrRadix 8 ('0' :: c :: cs)).map (- ·) := by
        unfold parseIntegerBody
        split
        · rename_i heq; cases heq
        · rename_i heq; cases heq
        · rename_i heq; cases heq; exact absurd rfl hx
        · rename_i heq; cases heq; exact absurd rfl hX
        · rename_i heq; cases heq
        · rename_i heq; cases heq; rw [if_neg (by rw [hdot]; decide)]
        · rename_i h1; exact absurd rfl (h1 _ _)
      rw [hm, hz]
      split <;> rfl

theorem parseIntegerAsU32_pos {n : Notation} {body : List Char} {v : Nat} {text : String}
    (h : Magnitude n body v) (ht : dropUnderscores text.toList = body) :
    parseIntegerAsU32 text = if v < 2 ^ 32 then some v else none := by
  have hmem : ∀ c ∈ body, c ≠ '-' := fun c hc =>
    magnitude_mem h hc (by decide) (by decide) (by decide)
  unfold parseIntegerAsU32
  simp only [ht]
  split
  · rename_i ds heq
    exfalso
    have : '-' ∈ body := by
      have hm : '-' ∈ body.dropWhile (fun c => c = ' ' || c = '\t' || c = '\n' || c = '\x0c'
          || c = '\r') := by rw [heq]; exact List.mem_cons_self ..
      exact (List.dropWhile_suffix _).subset hm
    exact hmem _ this rfl
  · cases h with
    | @decimal c cs v h0 h =>
      rw [← u32_unsigned (r := 10) (by omega) (List.cons_ne_nil _ _) h]
      split <;> first
        | rfl
        | (rename_i heq; cases heq; exact absurd rfl h0)
    | @hex x cs v hx hne h =>
      rw [← u32_unsigned (r := 16) (by omega) hne h]
      rcases hx with rfl | rfl <;> rfl
    | @octal cs v h =>
      cases cs with
      | nil => cases h; rfl
      | cons c cs =>
        obtain ⟨d, hd⟩ := digits_mem h (List.mem_cons_self ..)
        have hx : c ≠ 'x' := digit_ne (by omega) hd (by decide)
        have hX : c ≠ 'X' := digit_ne (by omega) hd (by decide)
        have hz := u32_unsigned (r := 8) (by omega) (List.cons_ne_nil _ _)
          (digits_zero_cons (by omega) h)
        rw [← hz]
        split
        · rename_i heq; cases heq; exact absurd rfl hx
        · rename_i heq; cases heq; exact absurd rfl hX
        · rename_i heq; cases heq; rfl
        · rename_i h1; exact absurd rfl (h1 _ _)

end Avdl

import Verif.Spec.JsonText
import Verif.Lemmas.Literals
/-!
# Lemmas: strings and numbers of JSON text
-/

namespace Avdl.Lemmas

open Avdl.Spec

/-! ## Strings -/

theorem isHigh_iff (n : Nat) : isHighSurrogate n = true ↔ High n := by
  unfold isHighSurrogate High
  simp only [Bool.and_eq_true, Bool.not_eq_true', decide_eq_false_iff_not, decide_eq_true_eq]
  omega

theorem isLow_iff (n : Nat) : isLowSurrogate n = true ↔ Low n := by
  unfold isLowSurrogate Low
  simp only [Bool.and_eq_true, Bool.not_eq_true', decide_eq_false_iff_not, decide_eq_true_eq]
  omega

theorem readHex4_of {hex rest : List Char} {v : Nat} (hl : hex.length = 4) (h : Digits 16 hex v) :
    readHex4 (hex ++ rest) = some (v, rest) := by
  match hex, hl with
  | [a, b, c, d], _ =>
    have : digitsFrom 16 0 [a, b, c, d] = some v :=
      (digitsFrom_iff (by omega) _ 0 v).2 ⟨v, h, by omega⟩
    simp only [List.cons_append, List.nil_append, readHex4, this]

theorem readHex4_inv {cs rest : List Char} {v : Nat} (h : readHex4 cs = some (v, rest)) :
    ∃ hex, hex.length = 4 ∧ Digits 16 hex v ∧ cs = hex ++ rest := by
  unfold readHex4 at h
  split at h
  · rename_i a b c d cs
    split at h
    · rename_i n hn
      cases h
      obtain ⟨w, hw, he⟩ := (digitsFrom_iff (by omega) _ 0 v).1 hn
      obtain rfl : v = w := by omega
      exact ⟨[a, b, c, d], rfl, hw, rfl⟩
    · cases h
  · cases h

theorem simpleEscape_iff (k c : Char) : simpleEscape k = some c ↔ (k, c) ∈ jsonEscapes := by
  constructor
  · intro h
    unfold simpleEscape at h
    repeat' split at h
    all_goals first | (cases h; subst_vars; decide) | cases h
  · intro h
    simp only [jsonEscapes, List.mem_cons, Prod.mk.injEq, List.not_mem_nil, or_false] at h
    rcases h with ⟨rfl, rfl⟩ | ⟨rfl, rfl⟩ | ⟨rfl, rfl⟩ | ⟨rfl, rfl⟩ | ⟨rfl, rfl⟩ | ⟨rfl, rfl⟩ |
      ⟨rfl, rfl⟩ | ⟨rfl, rfl⟩ <;> rfl

theorem readLow_of {h : Nat} {w rest : List Char} {l : Nat} (hw : CodeUnit w l) (hl : Low l) :
    readLow h (w ++ rest) =
      some (Char.ofNat (0x10000 + (h - 0xD800) * 0x400 + (l - 0xDC00)), rest) := by
  obtain ⟨hex, h4, hd, rfl⟩ := hw
  simp only [List.cons_append, readLow, readHex4_of h4 hd, (isLow_iff l).2 hl, if_true]

/-- The reader of strings finds the end of a string and what it denotes. -/
theorem readString_of {e s : List Char} (h : JsonChars e s) (rest : List Char) :
    ∀ n, e.length < n → readString n (e ++ '"' :: rest) = some (s, rest) := by
  induction h with
  | nil =>
    intro n hn
    cases n with
    | zero => simp at hn
    | succ n => simp [readString]
  | @plain c e s h1 h2 h3 _ ih =>
    intro n hn
    cases n with
    | zero => simp at hn
    | succ n =>
      have := ih n (by simp at hn; omega)
      simp only [List.cons_append, readString, h1, if_false, h2, Nat.not_lt.2 h3, this, Option.map_some]
  | @escape k c e s hk _ ih =>
    intro n hn
    cases n with
    | zero => simp at hn
    | succ n =>
      have hs := (simpleEscape_iff k c).2 hk
      have hu : k ≠ 'u' := by rintro rfl; cases hs
      have := ih n (by simp at hn; omega)
      simp [List.cons_append, readString, readEscape, hu, hs, this]
  | @unicode u v e s hu hh hl _ ih =>
    intro n hn
    obtain ⟨hex, h4, hd, rfl⟩ := hu
    cases n with
    | zero => simp at hn
    | succ n =>
      have := ih n (by simp at hn; omega)
      have hh' : isHighSurrogate v = false := by
        cases hb : isHighSurrogate v with
        | false => rfl
        | true => exact absurd ((isHigh_iff v).1 hb) hh
      have hl' : isLowSurrogate v = false := by
        cases hb : isLowSurrogate v with
        | false => rfl
        | true => exact absurd ((isLow_iff v).1 hb) hl
      have hr := readHex4_of (rest := e ++ '"' :: rest) h4 hd
      simp [List.cons_append, List.append_assoc, readString, readEscape, hr, hh', hl', this]
  | @pair u h w l e s hu hh hw hl _ ih =>
    intro n hn
    obtain ⟨hex, h4, hd, rfl⟩ := hu
    cases n with
    | zero => simp at hn
    | succ n =>
      have hwl : 2 ≤ w.length := by obtain ⟨hex', h4', -, rfl⟩ := hw; simp
      have := ih n (by simp at hn; omega)
      have hnl : isLowSurrogate h = false := by
        cases hb : isLowSurrogate h with
        | false => rfl
        | true =>
          have h1 := (isLow_iff h).1 hb
          unfold High at hh
          unfold Low at h1
          omega
      have hr := readHex4_of (rest := w ++ (e ++ '"' :: rest)) h4 hd
      have hlow := readLow_of (h := h) (rest := e ++ '"' :: rest) hw hl
      simp [List.cons_append, List.append_assoc, readString, readEscape, hr, hnl,
        (isHigh_iff h).2 hh, hlow, this]

/-! ## Numbers -/

/-- What may follow a number. -/
def NumStop (rest : List Char) : Prop := ∀ c r, rest = c :: r →
  isJsonDigit c = false ∧ c ≠ '.' ∧ c ≠ 'e' ∧ c ≠ 'E'

/-- What may follow a sequence of digits. -/
def DigitStop (rest : List Char) : Prop := ∀ c r, rest = c :: r → isJsonDigit c = false

theorem NumStop.digit {rest : List Char} (h : NumStop rest) : DigitStop rest :=
  fun c r hr => (h c r hr).1

theorem isJsonDigit_iff (c : Char) : isJsonDigit c = true ↔ ∃ d, IsDigit 10 c d := by
  have key : ∀ d, IsDigit 10 c d ↔ digitVal 10 c = some d := fun d =>
    (digitVal_iff (by omega)).symm
  constructor
  · intro h
    unfold isJsonDigit at h
    simp only [Bool.and_eq_true, decide_eq_true_eq] at h
    refine ⟨c.toNat - 48, (key _).2 ?_⟩
    have h1 := char_le_iff.1 h.1
    have h2 := char_le_iff.1 h.2
    have e0 : ('0' : Char).toNat = 48 := rfl
    have e9 : ('9' : Char).toNat = 57 := rfl
    rw [e0] at h1
    rw [e9] at h2
    unfold digitVal
    simp only [h, and_self, if_true]
    rw [if_pos (by omega)]
  · rintro ⟨d, hd⟩
    have hd' := (key d).1 hd
    unfold digitVal at hd'
    unfold isJsonDigit
    by_cases h : '0' ≤ c ∧ c ≤ '9'
    · simp [h.1, h.2]
    · exfalso
      simp only [h, if_false] at hd'
      split at hd'
      · rename_i d' hd''
        split at hd''
        · rename_i hc
          injection hd'' with hd''
          have h1 := char_le_iff.1 hc.1
          have e0 : ('a' : Char).toNat = 97 := rfl
          rw [e0] at h1
          split at hd'
          · omega
          · cases hd'
        · split at hd''
          · rename_i hc
            injection hd'' with hd''
            have h1 := char_le_iff.1 hc.1
            have e0 : ('A' : Char).toNat = 65 := rfl
            rw [e0] at h1
            split at hd'
            · omega
            · cases hd'
          · cases hd''
      · cases hd'

theorem digits_iff_all {ds : List Char} : (∃ v, Digits 10 ds v) ↔ ∀ c ∈ ds, isJsonDigit c = true := by
  induction ds with
  | nil => exact ⟨fun _ _ h => by simp at h, fun _ => ⟨0, .nil⟩⟩
  | cons c ds ih =>
    constructor
    · rintro ⟨v, hv⟩
      cases hv with
      | cons h1 h2 =>
        intro x hx
        rcases List.mem_cons.1 hx with rfl | hx
        · exact (isJsonDigit_iff _).2 ⟨_, h1⟩
        · exact ih.1 ⟨_, h2⟩ x hx
    · intro h
      obtain ⟨d, hd⟩ := (isJsonDigit_iff c).1 (h c (by simp))
      obtain ⟨v, hv⟩ := ih.2 fun x hx => h x (by simp [hx])
      exact ⟨_, .cons hd hv⟩

theorem span_digits {ds rest : List Char} (h : ∀ c ∈ ds, isJsonDigit c = true) (hs : DigitStop rest) :
    (ds ++ rest).takeWhile isJsonDigit = ds ∧ (ds ++ rest).dropWhile isJsonDigit = rest := by
  induction ds with
  | nil =>
    cases rest with
    | nil => simp
    | cons c r => simp [hs c r rfl]
  | cons c ds ih =>
    have := ih fun x hx => h x (by simp [hx])
    simp [h c (by simp), this.1, this.2]

theorem readDigits_of {ds rest : List Char} (h : SomeDigits ds) (hs : DigitStop rest) :
    readDigits (ds ++ rest) = some (ds, rest) := by
  obtain ⟨h1, h2⟩ := span_digits (digits_iff_all.1 h.2) hs
  simp only [readDigits, h1, h2, h.1, if_false]

theorem readIntPart_of {ds rest : List Char} (h : IntPart ds) (hs : DigitStop rest) :
    readIntPart (ds ++ rest) = some (ds, rest) := by
  obtain ⟨h1, h2⟩ := span_digits (digits_iff_all.1 h.1.2) hs
  simp only [readIntPart, h1, h2]
  rw [if_neg h.1.1, if_neg fun hc => hc.2 (h.2 hc.1)]

theorem readFraction_of {frac rest : List Char} (h : Fraction frac) (hs : NumStop rest ∨
    ∃ c r, rest = c :: r ∧ (c = 'e' ∨ c = 'E')) :
    readFraction (frac ++ rest) = some (frac, rest) := by
  have hd : DigitStop rest := by
    rcases hs with hs | ⟨c, r, rfl, hc⟩
    · exact hs.digit
    · intro c' r' he
      cases he
      rcases hc with rfl | rfl <;> rfl
  rcases h with rfl | ⟨ds, hds, rfl⟩
  · cases rest with
    | nil => rfl
    | cons c r =>
      have hc : c ≠ '.' := by
        rcases hs with hs | ⟨c', r', he, hc⟩
        · exact (hs c r rfl).2.1
        · cases he
          rcases hc with rfl | rfl <;> decide
      unfold readFraction
      simp only [List.nil_append]
      split
      · rename_i he; cases he; exact absurd rfl hc
      · rfl
  · simp only [List.cons_append, readFraction, readDigits_of hds hd, Option.map_some]

theorem someDigits_head {ds : List Char} (h : SomeDigits ds) :
    ∃ c r, ds = c :: r ∧ isJsonDigit c = true := by
  cases ds with
  | nil => exact absurd rfl h.1
  | cons c r => exact ⟨c, r, rfl, digits_iff_all.1 h.2 c (by simp)⟩

theorem readExponent_of {exp rest : List Char} (h : Exponent exp) (hs : NumStop rest) :
    readExponent (exp ++ rest) = some (exp, rest) := by
  rcases h with rfl | ⟨e, sign, ds, he, hsign, hds, rfl⟩
  · cases rest with
    | nil => rfl
    | cons c r =>
      have := hs c r rfl
      simp only [List.nil_append, readExponent]
      rw [if_neg (fun h => h.elim this.2.2.1 this.2.2.2)]
  · have hr : readSign (sign ++ (ds ++ rest)) = (sign, ds ++ rest) := by
      rcases hsign with rfl | rfl | rfl
      · obtain ⟨c, r, rfl, hc⟩ := someDigits_head hds
        simp only [List.nil_append, List.cons_append, readSign]
        rw [if_neg]
        rintro (rfl | rfl) <;> cases hc
      · rfl
      · rfl
    simp only [List.cons_append, List.append_assoc, readExponent, he, if_true, hr,
      readDigits_of hds hs.digit, Option.map_some]

theorem frac_exp_stop {exp rest : List Char} (h : Exponent exp) (hs : NumStop rest) :
    NumStop (exp ++ rest) ∨ ∃ c r, exp ++ rest = c :: r ∧ (c = 'e' ∨ c = 'E') := by
  rcases h with rfl | ⟨e, sign, ds, he, hsign, hds, rfl⟩
  · exact .inl hs
  · exact .inr ⟨e, _, rfl, he⟩

theorem int_stop {frac exp rest : List Char} (hf : Fraction frac) (h : Exponent exp)
    (hs : NumStop rest) : DigitStop (frac ++ (exp ++ rest)) := by
  rcases hf with rfl | ⟨ds, hds, rfl⟩
  · intro c r he
    rcases frac_exp_stop h hs with h1 | ⟨c', r', h1, h2⟩
    · exact h1.digit c r he
    · rw [List.nil_append, h1] at he
      cases he
      rcases h2 with rfl | rfl <;> rfl
  · intro c r he
    cases he
    rfl

theorem readUnsigned_of [JsonFloats] {neg : Bool} {ds frac exp rest : List Char} {n : JNum}
    (h1 : IntPart ds) (h2 : Fraction frac) (h3 : Exponent exp) (hs : NumStop rest)
    (hv : numberValue neg ds (frac ++ exp) = some n) :
    readUnsigned neg (ds ++ frac ++ exp ++ rest) = some (n, rest) := by
  simp only [List.append_assoc, readUnsigned, readIntPart_of h1 (int_stop h2 h3 hs),
    readFraction_of h2 (frac_exp_stop h3 hs), readExponent_of h3 hs, hv, Option.map_some]

theorem intPart_minus {ds rest : List Char} (h : IntPart ds) :
    ∃ c r, ds ++ rest = c :: r ∧ c ≠ '-' := by
  obtain ⟨c, r, rfl, hc⟩ := someDigits_head h.1
  exact ⟨c, r ++ rest, rfl, by rintro rfl; cases hc⟩

theorem readNumber_pos [JsonFloats] {ds rest : List Char} (h : IntPart ds) :
    readNumber (ds ++ rest) = readUnsigned false (ds ++ rest) := by
  obtain ⟨c, r, he, hc⟩ := intPart_minus (rest := rest) h
  rw [he]
  unfold readNumber
  split
  · rename_i h'; cases h'; exact absurd rfl hc
  · rfl

theorem digits_unique {r : Nat} {ds : List Char} {v v' : Nat} (hr : r ≤ 16) (h : Digits r ds v)
    (h' : Digits r ds v') : v = v' := by
  have a := (digitsFrom_iff hr ds 0 v).2 ⟨v, h, by omega⟩
  have b := (digitsFrom_iff hr ds 0 v').2 ⟨v', h', by omega⟩
  rw [a] at b
  exact Option.some.inj b

theorem digitsFrom_of {r : Nat} {ds : List Char} {v : Nat} (hr : r ≤ 16) (h : Digits r ds v) :
    digitsFrom r 0 ds = some v := (digitsFrom_iff hr ds 0 v).2 ⟨v, h, by omega⟩

/-- The reader of numbers finds the end of a number and what it denotes. -/
theorem readNumber_of [JsonFloats] {cs rest : List Char} {n : JNum} (h : JsonNumber cs n)
    (hs : NumStop rest) : readNumber (cs ++ rest) = some (n, rest) := by
  cases h with
  | @natural ds v h1 h2 h3 =>
    rw [readNumber_pos h1]
    have := readUnsigned_of (neg := false) (n := .int v) h1 (.inl rfl) (.inl rfl) hs (by
      simp only [numberValue, List.append_nil, digitsFrom_of (by omega) h2, h3, if_true]
      rfl)
    simpa using this
  | @negative ds v h1 h2 h3 h4 =>
    have := readUnsigned_of (neg := true) (n := .int (-(v : Int))) h1 (.inl rfl) (.inl rfl) hs (by
      have : v ≠ 0 := by omega
      simp only [numberValue, List.append_nil, digitsFrom_of (by omega) h2, h4, if_true, this,
        if_false])
    show readUnsigned true (ds ++ rest) = _
    simpa using this
  | @float sign ds frac exp f h1 h2 h3 h4 h5 h6 =>
    obtain ⟨v, hv⟩ := h2.1.2
    have hval : ∀ neg, sign = (if neg then ['-'] else []) →
        numberValue neg ds (frac ++ exp) = some (.float f.1 f.2.1 f.2.2) := by
      intro neg hneg
      have hf : (JsonFloats.read ((if neg then ['-'] else []) ++ ds ++ (frac ++ exp))).map
          (fun f => JNum.float f.1 f.2.1 f.2.2) = some (.float f.1 f.2.1 f.2.2) := by
        rw [← hneg, show sign ++ ds ++ (frac ++ exp) = sign ++ ds ++ frac ++ exp by simp, h6]
        rfl
      unfold numberValue
      simp only [hf]
      split
      · rename_i n ht hn
        rw [digitsFrom_of (by omega) hv] at hn
        cases hn
        obtain ⟨g1, g2⟩ := h5 ht
        cases neg with
        | false =>
          have := g1 v hv (by simpa using hneg)
          simp only [Bool.false_eq_true, if_false]
          rw [if_neg (Nat.not_lt.2 this)]
        | true =>
          have := g2 v hv (by simpa using hneg)
          simp only [if_true]
          split
          · rfl
          · rw [if_neg (by omega)]
      · rfl
    rcases h1 with rfl | rfl
    · have := readUnsigned_of h2 h3 h4 hs (hval false rfl)
      rw [show [] ++ ds ++ frac ++ exp ++ rest = ds ++ (frac ++ exp ++ rest) by simp,
        readNumber_pos h2]
      simpa using this
    · have := readUnsigned_of h2 h3 h4 hs (hval true rfl)
      show readUnsigned true (ds ++ frac ++ exp ++ rest) = _
      exact this

end Avdl.Lemmas

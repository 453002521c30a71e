import Verif.Lemmas.Literals
/-!
# Lemmas about escape sequences
-/

namespace Avdl
open Spec

theorem unescapeJava_plain {c : Char} {cs : List Char} (h : c ≠ '\\') :
    unescapeJava (c :: cs) = c :: unescapeJava cs := by
  rw [unescapeJava_cons, if_neg h]

theorem unescapeJava_escape (cs : List Char) :
    unescapeJava ('\\' :: cs) = (escapeStep cs).1 ++ unescapeJava (escapeStep cs).2 := by
  rw [unescapeJava_cons, if_pos rfl]

theorem escapeStep_named {k c : Char} (h : (k, c) ∈ namedEscapes) (cs : List Char) :
    escapeStep (k :: cs) = ([c], cs) := by
  simp only [namedEscapes, List.mem_cons, Prod.mk.injEq, List.not_mem_nil, or_false] at h
  rcases h with ⟨rfl, rfl⟩ | ⟨rfl, rfl⟩ | ⟨rfl, rfl⟩ | ⟨rfl, rfl⟩ | ⟨rfl, rfl⟩ | ⟨rfl, rfl⟩ |
    ⟨rfl, rfl⟩ | ⟨rfl, rfl⟩ <;> rfl

/-! ## Octal -/

theorem isOct_iff {c : Char} : isOct c = true ↔ ∃ d, IsDigit 8 c d := by
  have e0 : '0'.toNat = 48 := rfl
  have e7 : '7'.toNat = 55 := rfl
  simp only [isOct, Bool.and_eq_true, decide_eq_true_eq, char_le_iff, e0, e7]
  constructor
  · intro h
    refine ⟨c.toNat - 48, by omega, Or.inl ?_⟩
    rw [(lower_digits _ (by omega)).1]
    congr 1
    exact (char_of_toNat (by omega)).symm
  · rintro ⟨d, hd⟩
    have := hd.1
    rcases isDigit_cases (by omega) hd with h | h <;> omega

theorem oct_ne {a x : Char} (h : isOct a = true) (hx : isOct x = false) : a ≠ x := by
  rintro rfl; rw [h] at hx; cases hx

theorem escapeStep_octal {a : Char} (h : isOct a = true) (cs : List Char) :
    escapeStep (a :: cs) = octalEscape a cs := by
  have h1 := fun x hx => oct_ne (x := x) h hx
  unfold escapeStep
  split
  all_goals try (rename_i heq; cases heq; exact absurd rfl (h1 _ (by decide)))
  · rename_i heq; cases heq; rw [if_pos h]
  · rename_i heq; cases heq

theorem isOct_false_of_noNext {e : List Char} (h : NoOctalNext e) {c : Char} {e' : List Char}
    (he : e = c :: e') : isOct c = false := by
  rw [Bool.eq_false_iff]
  intro hc
  obtain ⟨d, hd⟩ := isOct_iff.mp hc
  exact h c e' he d hd

theorem takeOctal_one {a : Char} {e : List Char} (h : NoOctalNext e) :
    takeOctal a e = ([a], e) := by
  unfold takeOctal
  split
  · rfl
  · rw [if_neg (by rw [isOct_false_of_noNext h rfl]; decide)]

theorem takeOctal_two {a b : Char} {e : List Char} (hb : isOct b = true)
    (h : ¬ a ≤ '3' ∨ NoOctalNext e) : takeOctal a (b :: e) = ([a, b], e) := by
  unfold takeOctal
  simp only [hb, if_true]
  split
  · rfl
  · rename_i c e'
    rw [if_neg]
    rintro ⟨h1, h2⟩
    rcases h with h | h
    · exact h h1
    · rw [isOct_false_of_noNext h rfl] at h2; cases h2

theorem takeOctal_three {a b c : Char} {e : List Char} (ha : a ≤ '3') (hb : isOct b = true)
    (hc : isOct c = true) : takeOctal a (b :: c :: e) = ([a, b, c], e) := by
  unfold takeOctal
  simp only [hb, hc, ha, if_true, and_self]

theorem charFromU32_small {v : Nat} (h : v < 256) : charFromU32 v = some (Char.ofNat v) := by
  unfold charFromU32
  rw [if_pos (Or.inl (by omega))]

theorem octalEscape_of {a : Char} {cs ds e : List Char} {v : Nat} (h : takeOctal a cs = (ds, e))
    (hne : ds ≠ []) (hd : Digits 8 ds v) (hv : v < 256) :
    octalEscape a cs = ([Char.ofNat v], e) := by
  unfold octalEscape
  simp only [h]
  rw [u32_unsigned (by omega) hne hd, if_pos (Nat.lt_of_lt_of_le hv (by decide))]
  simp only [charFromU32_small hv, charOrRaw]

theorem digits_cons {r v : Nat} {a : Char} {cs : List Char} (h : Digits r (a :: cs) v) :
    ∃ d w, IsDigit r a d ∧ Digits r cs w ∧ v = d * r ^ cs.length + w := by
  cases h with
  | cons hd h => exact ⟨_, _, hd, h, rfl⟩

theorem digits_singleton {r v : Nat} {a : Char} (h : Digits r [a] v) : IsDigit r a v := by
  obtain ⟨d, w, hd, hw, rfl⟩ := digits_cons h
  cases hw
  simpa using hd

theorem oct_le_three {a : Char} {d : Nat} (h : IsDigit 8 a d) : a ≤ '3' ↔ d ≤ 3 := by
  have e3 : '3'.toNat = 51 := rfl
  rw [char_le_iff, e3]
  have := h.1
  rcases isDigit_cases (by omega) h with h | h <;> omega

/-! ## Unicode -/

theorem hex_ne_u {c : Char} {d : Nat} (h : IsDigit 16 c d) : c ≠ 'u' :=
  digit_ne (Nat.le_refl _) h (by decide)

theorem skipU_hex {hex rest : List Char} {v : Nat} (hl : hex.length = 4) (h : Digits 16 hex v)
    (k : Nat) : skipU (List.replicate k 'u' ++ (hex ++ rest)) = hex ++ rest := by
  induction k with
  | succ k ih => simpa [List.replicate_succ, skipU] using ih
  | zero =>
    cases h with
    | nil => cases hl
    | cons hd h =>
      have := hex_ne_u hd
      simp only [List.replicate_zero, List.nil_append, List.cons_append]
      unfold skipU
      split
      · rename_i heq; cases heq; exact absurd rfl this
      · rfl

theorem skipU_split (cs : List Char) : ∃ k, cs = List.replicate k 'u' ++ skipU cs := by
  fun_induction skipU cs with
  | case1 cs ih =>
    obtain ⟨k, hk⟩ := ih
    exact ⟨k + 1, by rw [List.replicate_succ, List.cons_append, ← hk]⟩
  | case2 => exact ⟨0, by simp⟩

/-- Inversion of `u32::from_str_radix`. -/
theorem u32FromStrRadix_inv {r n : Nat} {cs : List Char} (hr : r ≤ 16)
    (h : u32FromStrRadix r cs = some n) :
    Digits r cs n ∨ ∃ ds, cs = '+' :: ds ∧ Digits r ds n := by
  have key : ∀ ds, parseDigits r ds = some n → Digits r ds n := by
    intro ds hd
    cases ds with
    | nil => cases hd
    | cons c ds =>
      obtain ⟨w, hw, e⟩ := (digitsFrom_iff hr _ _ _).mp hd
      simp only [Nat.zero_mul, Nat.zero_add] at e
      rw [e]; exact hw
  by_cases hp : ∃ ds, cs = '+' :: ds
  · obtain ⟨ds, rfl⟩ := hp
    have hm : u32FromStrRadix r ('+' :: ds) = match parseDigits r ds with
        | some n => if n < 2 ^ 32 then some n else none
        | none => none := rfl
    rw [hm] at h
    split at h
    · rename_i m hm'
      split at h
      · cases h; exact Or.inr ⟨ds, rfl, key _ hm'⟩
      · cases h
    · cases h
  · have hm : u32FromStrRadix r cs = match parseDigits r cs with
        | some n => if n < 2 ^ 32 then some n else none
        | none => none := by
      unfold u32FromStrRadix
      congr 1
      split
      · exact absurd ⟨_, rfl⟩ hp
      · rfl
    rw [hm] at h
    split at h
    · rename_i m hm'
      split at h
      · cases h; exact Or.inl (key _ hm')
      · cases h
    · cases h

theorem isHighSurrogate_iff {n : Nat} : isHighSurrogate n = true ↔ High n := by
  simp only [isHighSurrogate, High, Bool.and_eq_true, Bool.not_eq_true', decide_eq_false_iff_not,
    decide_eq_true_eq, Nat.not_le]
  exact Iff.rfl

theorem isLowSurrogate_iff {n : Nat} : isLowSurrogate n = true ↔ Low n := by
  simp only [isLowSurrogate, Low, Bool.and_eq_true, Bool.not_eq_true', decide_eq_false_iff_not,
    decide_eq_true_eq, Nat.not_le]
  exact Iff.rfl

theorem hex4_lt {hex : List Char} {v : Nat} (hl : hex.length = 4) (h : Digits 16 hex v) :
    v < 65536 := by
  have := digits_lt h
  rw [hl] at this
  exact this

theorem u32_hex4 {hex : List Char} {v : Nat} (hl : hex.length = 4) (h : Digits 16 hex v) :
    u32FromStrRadix 16 hex = some v := by
  have hne : hex ≠ [] := by rintro rfl; cases hl
  rw [u32_unsigned (Nat.le_refl _) hne h, if_pos (Nat.lt_trans (hex4_lt hl h) (by decide))]

theorem tryParseLow_of {w e : List Char} {l : Nat} (hw : UnicodeEscape w l) (hl : Low l) :
    tryParseLowSurrogate (w ++ e) = some (l, e) := by
  obtain ⟨k, hex, h4, hd, rfl⟩ := hw
  simp only [List.cons_append, List.append_assoc, tryParseLowSurrogate, skipU_hex h4 hd]
  rw [List.take_left' h4, if_neg (by omega), u32_hex4 h4 hd, List.drop_left' h4]
  simp only [isLowSurrogate_iff.mpr hl, if_true]

theorem tryParseLow_inv {e r : List Char} {l : Nat} (h : tryParseLowSurrogate e = some (l, r)) :
    ∃ w, UnicodeEscape w l ∧ Low l ∧ e = w ++ r := by
  unfold tryParseLowSurrogate at h
  split at h
  · rename_i cs
    simp only at h
    split at h
    · cases h
    · rename_i h4
      have h4 : ((skipU cs).take 4).length = 4 := Decidable.of_not_not h4
      split at h
      · rename_i low hlow
        split at h
        · rename_i hs
          cases h
          have hL := isLowSurrogate_iff.mp hs
          rcases u32FromStrRadix_inv (Nat.le_refl _) hlow with hd | ⟨ds, hds, hd⟩
          · obtain ⟨k, hk⟩ := skipU_split cs
            refine ⟨_, ⟨k, _, h4, hd, rfl⟩, hL, ?_⟩
            rw [List.cons_append, List.cons_append, List.append_assoc, List.take_append_drop, ← hk]
          · exfalso
            have hlt := digits_lt hd
            have : ds.length = 3 := by
              have := congrArg List.length hds
              rw [h4] at this
              simpa using this.symm
            rw [this] at hlt
            have h1 := hL.1
            omega
        · cases h
      · cases h
  · cases h

theorem escapeStep_unicode {u e : List Char} {v : Nat} (h : UnicodeEscape u v) :
    ∃ hex cs, hex.length = 4 ∧ Digits 16 hex v ∧ u ++ e = '\\' :: cs ∧
      rawEscape u = '\\' :: 'u' :: hex ∧ escapeStep cs = decodeUnicode hex e := by
  obtain ⟨k, hex, h4, hd, rfl⟩ := h
  refine ⟨hex, _, h4, hd, rfl, ?_, ?_⟩
  · unfold rawEscape
    have e1 : '\\' :: 'u' :: (List.replicate k 'u' ++ hex)
        = ('\\' :: 'u' :: List.replicate k 'u') ++ hex := by simp
    rw [e1, List.drop_left' (by rw [List.length_append, h4]; omega)]
  · show unicodeEscape ((List.replicate k 'u' ++ hex) ++ e) = _
    rw [List.append_assoc, unicodeEscape, skipU_hex h4 hd, List.take_left' h4, List.drop_left' h4]

theorem charFromU32_bmp {v : Nat} (hv : v < 65536) (h1 : ¬ High v) (h2 : ¬ Low v) :
    charFromU32 v = some (Char.ofNat v) := by
  unfold charFromU32
  rw [if_pos]
  unfold High at h1
  unfold Low at h2
  omega

theorem charFromU32_low {v : Nat} (h : Low v) : charFromU32 v = none := by
  unfold charFromU32
  rw [if_neg]
  unfold Low at h
  omega

theorem charFromU32_pair {h l : Nat} (hh : High h) (hl : Low l) :
    charFromU32 (combineSurrogates h l)
      = some (Char.ofNat (0x10000 + (h - 0xD800) * 0x400 + (l - 0xDC00))) := by
  have he : combineSurrogates h l = 0x10000 + (h - 0xD800) * 0x400 + (l - 0xDC00) := by
    unfold combineSurrogates; omega
  have hle : ¬ combineSurrogates h l ≤ 0xDFFF ∧ combineSurrogates h l ≤ 0x10FFFF := by
    unfold High at hh
    unfold Low at hl
    rw [he]
    omega
  rw [← he]
  unfold charFromU32
  rw [if_pos (Or.inr hle)]

theorem decodeUnicode_pair {hex e : List Char} {hi l n : Nat} {r : List Char}
    (h : u32FromStrRadix 16 hex = some hi) (hh : isHighSurrogate hi = true)
    (hl : tryParseLowSurrogate e = some (l, r))
    (hc : charFromU32 (combineSurrogates hi l) = some (Char.ofNat n)) :
    decodeUnicode hex e = ([Char.ofNat n], r) := by
  have h1 : decodeUnicode hex e = decodePair ('\\' :: 'u' :: hex) hi e (tryParseLowSurrogate e) := by
    unfold decodeUnicode
    simp only [h, hh, if_true]
  rw [h1, hl, decodePair, hc, charOrRaw]

theorem decodeUnicode_lone {hex e : List Char} {hi : Nat}
    (h : u32FromStrRadix 16 hex = some hi) (hh : isHighSurrogate hi = true)
    (hl : tryParseLowSurrogate e = none) :
    decodeUnicode hex e = ('\\' :: 'u' :: hex, e) := by
  unfold decodeUnicode
  simp only [h, hh, hl, if_true, decodePair]

theorem decodeUnicode_other {hex e : List Char} {hi : Nat}
    (h : u32FromStrRadix 16 hex = some hi) (hh : isHighSurrogate hi = false) :
    decodeUnicode hex e = (charOrRaw ('\\' :: 'u' :: hex) (charFromU32 hi), e) := by
  unfold decodeUnicode
  simp only [h, hh]
  rfl

theorem not_high_of_low {v : Nat} (h : Low v) : isHighSurrogate v = false := by
  rw [Bool.eq_false_iff]
  intro hc
  have := isHighSurrogate_iff.mp hc
  unfold High at this
  unfold Low at h
  omega

theorem not_low_of_high {v : Nat} (h : High v) : ¬ Low v := by
  unfold High at h
  unfold Low
  omega

/-- Decoding computes the denotation. -/
theorem unescapeJava_of_decodes {e s : List Char} (h : Decodes e s) : unescapeJava e = s := by
  induction h with
  | nil => rfl
  | plain hc _ ih => rw [unescapeJava_plain hc, ih]
  | named hk _ ih => rw [unescapeJava_escape, escapeStep_named hk]; simp [ih]
  | @oct1 a v e s hd hn _ ih =>
    have ha := digits_singleton hd
    rw [unescapeJava_escape, escapeStep_octal (isOct_iff.mpr ⟨_, ha⟩),
      octalEscape_of (takeOctal_one hn) (by simp) hd (by have := ha.1; omega)]
    simp [ih]
  | @oct2 a b v e s hd hn _ ih =>
    obtain ⟨d, w, ha, hb, _⟩ := digits_cons hd
    have hb := digits_singleton hb
    have hn' : ¬ a ≤ '3' ∨ NoOctalNext e := by
      rcases hn with hn | hn
      · left
        simp only [List.mem_cons, List.not_mem_nil, or_false] at hn
        rcases hn with rfl | rfl | rfl | rfl <;> decide
      · exact Or.inr hn
    have hlt := digits_lt hd
    rw [unescapeJava_escape, escapeStep_octal (isOct_iff.mpr ⟨_, ha⟩),
      octalEscape_of (takeOctal_two (isOct_iff.mpr ⟨_, hb⟩) hn') (by simp) hd
        (Nat.lt_trans hlt (show 8 ^ 2 < 256 by decide))]
    simp [ih]
  | @oct3 a b c v e s hd hv _ ih =>
    obtain ⟨d, w, ha, hb, hvw⟩ := digits_cons hd
    obtain ⟨d2, w2, hb, hc, _⟩ := digits_cons hb
    have hc := digits_singleton hc
    have ha3 : a ≤ '3' := by
      rw [oct_le_three ha]
      simp at hvw
      omega
    rw [unescapeJava_escape, escapeStep_octal (isOct_iff.mpr ⟨_, ha⟩),
      octalEscape_of (takeOctal_three ha3 (isOct_iff.mpr ⟨_, hb⟩) (isOct_iff.mpr ⟨_, hc⟩))
        (by simp) hd hv]
    simp [ih]
  | @unicode u v e s hu h1 h2 _ ih =>
    obtain ⟨hex, cs, h4, hd, he, _, hs⟩ := escapeStep_unicode (e := e) hu
    have hh : isHighSurrogate v = false := by
      rw [Bool.eq_false_iff]; exact fun hc => h1 (isHighSurrogate_iff.mp hc)
    have hdec : decodeUnicode hex e = ([Char.ofNat v], e) := by
      rw [decodeUnicode_other (u32_hex4 h4 hd) hh, charFromU32_bmp (hex4_lt h4 hd) h1 h2, charOrRaw]
    rw [he, unescapeJava_escape, hs, hdec]
    simp [ih]
  | @pair u hi w l e s hu h1 hw h2 _ ih =>
    obtain ⟨hex, cs, h4, hd, he, _, hs⟩ := escapeStep_unicode (e := w ++ e) hu
    have hdec := decodeUnicode_pair (u32_hex4 h4 hd) (isHighSurrogate_iff.mpr h1)
      (tryParseLow_of (e := e) hw h2) (charFromU32_pair h1 h2)
    rw [List.append_assoc, he, unescapeJava_escape, hs, hdec, ih, List.singleton_append]
  | @loneHigh u hi e s hu h1 hno _ ih =>
    obtain ⟨hex, cs, h4, hd, he, hr, hs⟩ := escapeStep_unicode (e := e) hu
    have hnone : tryParseLowSurrogate e = none := by
      cases ht : tryParseLowSurrogate e with
      | none => rfl
      | some p =>
        obtain ⟨l, r⟩ := p
        obtain ⟨w, hw, hl, rfl⟩ := tryParseLow_inv ht
        exact absurd rfl (hno w l r hw hl)
    have hdec : decodeUnicode hex e = (rawEscape u, e) := by
      rw [decodeUnicode_lone (u32_hex4 h4 hd) (isHighSurrogate_iff.mpr h1) hnone, hr]
    rw [he, unescapeJava_escape, hs, hdec, ih]
  | @loneLow u l e s hu h1 _ ih =>
    obtain ⟨hex, cs, h4, hd, he, hr, hs⟩ := escapeStep_unicode (e := e) hu
    have hdec : decodeUnicode hex e = (rawEscape u, e) := by
      rw [decodeUnicode_other (u32_hex4 h4 hd) (not_high_of_low h1), charFromU32_low h1,
        charOrRaw, hr]
    rw [he, unescapeJava_escape, hs, hdec, ih]

/-! ## Every string token has a denotation -/

theorem stringBody_tail {c : Char} {e : List Char} (hc : c ≠ '\\') (h : StringBody (c :: e)) :
    StringBody e := by
  generalize hx : c :: e = x at h
  cases h with
  | nil => cases hx
  | plain _ h => cases hx; exact h
  | named => cases hx; exact absurd rfl hc
  | oct1 => cases hx; exact absurd rfl hc
  | oct2 => cases hx; exact absurd rfl hc
  | oct3 => cases hx; exact absurd rfl hc
  | unicode hu _ =>
    obtain ⟨k, hex, _, _, rfl⟩ := hu
    cases hx; exact absurd rfl hc

theorem unicodeEscape_length_pos {u : List Char} {v : Nat} (h : UnicodeEscape u v) :
    0 < u.length := by
  obtain ⟨k, hex, _, _, rfl⟩ := h
  simp

theorem unicodeEscape_lt {u : List Char} {v : Nat} (h : UnicodeEscape u v) : v < 65536 := by
  obtain ⟨k, hex, h4, hd, rfl⟩ := h
  exact hex4_lt h4 hd

theorem replicate_u_inj {k k' : Nat} {hex hex' r r' : List Char} {v v' : Nat}
    (h4 : hex.length = 4) (hd : Digits 16 hex v) (h4' : hex'.length = 4) (hd' : Digits 16 hex' v')
    (h : List.replicate k 'u' ++ (hex ++ r) = List.replicate k' 'u' ++ (hex' ++ r')) :
    hex ++ r = hex' ++ r' := by
  rw [← skipU_hex (rest := r) h4 hd k, h, skipU_hex (rest := r') h4' hd' k']

theorem stringBody_unicode {w e : List Char} {l : Nat} (hw : UnicodeEscape w l)
    (h : StringBody (w ++ e)) : StringBody e := by
  obtain ⟨k, hex, h4, hd, rfl⟩ := hw
  generalize hx : '\\' :: 'u' :: (List.replicate k 'u' ++ hex) ++ e = x at h
  cases h with
  | nil => cases hx
  | plain hc => cases hx; exact absurd rfl hc
  | named hk =>
    cases hx
    exact absurd hk (by simp [namedEscapes])
  | oct1 ho =>
    cases hx
    obtain ⟨d, hd⟩ := digits_mem ho (List.mem_cons_self ..)
    exact absurd rfl (digit_ne (x := 'u') (by omega) hd (by decide))
  | oct2 ho =>
    obtain ⟨d, hd⟩ := digits_mem ho (List.mem_cons_self ..)
    injection hx with _ hx
    injection hx with hx _
    exact absurd hx.symm (digit_ne (x := 'u') (by omega) hd (by decide))
  | oct3 ho =>
    obtain ⟨d, hd⟩ := digits_mem ho (List.mem_cons_self ..)
    injection hx with _ hx
    injection hx with hx _
    exact absurd hx.symm (digit_ne (x := 'u') (by omega) hd (by decide))
  | unicode hu hb =>
    obtain ⟨k', hex', h4', hd', rfl⟩ := hu
    simp only [List.cons_append, List.append_assoc, List.cons.injEq, true_and] at hx
    have := replicate_u_inj h4 hd h4' hd' hx
    have := List.append_inj_right this (h4.trans h4'.symm)
    rw [this]; exact hb

theorem oct_mem_of_gt {a : Char} {d : Nat} (h : IsDigit 8 a d) (h3 : 3 < d) :
    a ∈ ['4', '5', '6', '7'] := by
  have hd := h.1
  have ht : a.toNat = 48 + d := by rcases isDigit_cases (by omega) h with h | h <;> omega
  have := char_of_toNat ht
  have h4 : d = 4 ∨ d = 5 ∨ d = 6 ∨ d = 7 := by omega
  rcases h4 with rfl | rfl | rfl | rfl <;> rw [this] <;> decide

theorem noOctalNext_or (e : List Char) :
    NoOctalNext e ∨ ∃ c e' d, e = c :: e' ∧ IsDigit 8 c d := by
  cases e with
  | nil => exact Or.inl (fun c e' h => by cases h)
  | cons c e =>
    cases h : isOct c with
    | true =>
      obtain ⟨d, hd⟩ := isOct_iff.mp h
      exact Or.inr ⟨c, e, d, rfl, hd⟩
    | false =>
      left
      intro c' e' he d hd
      cases he
      rw [isOct_iff.mpr ⟨d, hd⟩] at h
      cases h

theorem oct_ne_backslash {c : Char} {d : Nat} (h : IsDigit 8 c d) : c ≠ '\\' :=
  digit_ne (by omega) h (by decide)

theorem decodes_total_aux (n : Nat) : ∀ e, e.length ≤ n → StringBody e → ∃ s, Decodes e s := by
  induction n with
  | zero =>
    intro e he _
    cases e with
    | nil => exact ⟨[], .nil⟩
    | cons => simp at he
  | succ n ih =>
    intro e he h
    -- two octal digits have been read, the first of them below '4'
    have two : ∀ a b e2, ∀ d1 d2, IsDigit 8 a d1 → IsDigit 8 b d2 → StringBody e2 →
        e2.length + 1 ≤ n → ∃ s, Decodes ('\\' :: a :: b :: e2) s := by
      intro a b e2 d1 d2 ha hb hb2 hlen
      have hab : Digits 8 [a, b] _ := .cons ha (.cons hb .nil)
      rcases Nat.lt_or_ge 3 d1 with h3 | h3
      · obtain ⟨s, hs⟩ := ih e2 (by omega) hb2
        exact ⟨_, .oct2 hab (Or.inl (oct_mem_of_gt ha h3)) hs⟩
      · rcases noOctalNext_or e2 with hno | ⟨c, e3, d3, rfl, hc⟩
        · obtain ⟨s, hs⟩ := ih e2 (by omega) hb2
          exact ⟨_, .oct2 hab (Or.inr hno) hs⟩
        · have hb3 := stringBody_tail (oct_ne_backslash hc) hb2
          obtain ⟨s, hs⟩ := ih e3 (by simp at hlen; omega) hb3
          have habc : Digits 8 [a, b, c] _ := .cons ha (.cons hb (.cons hc .nil))
          refine ⟨_, .oct3 habc ?_ hs⟩
          have := hb.1
          have := hc.1
          simp
          omega
    cases h with
    | nil => exact ⟨[], .nil⟩
    | @plain c e hc h =>
      obtain ⟨s, hs⟩ := ih e (by simp at he; omega) h
      exact ⟨_, .plain hc hs⟩
    | @named k c e hk h =>
      obtain ⟨s, hs⟩ := ih e (by simp at he; omega) h
      exact ⟨_, .named hk hs⟩
    | @oct1 a v e hd h =>
      have ha := digits_singleton hd
      rcases noOctalNext_or e with hno | ⟨b, e2, d2, rfl, hb⟩
      · obtain ⟨s, hs⟩ := ih e (by simp at he; omega) h
        exact ⟨_, .oct1 hd hno hs⟩
      · exact two a b e2 _ _ ha hb (stringBody_tail (oct_ne_backslash hb) h)
          (by simp at he; omega)
    | @oct2 a b v e hd h =>
      obtain ⟨d, w, ha, hb, _⟩ := digits_cons hd
      exact two a b e _ _ ha (digits_singleton hb) h (by simp at he; omega)
    | @oct3 a b c v e hd hv h =>
      obtain ⟨s, hs⟩ := ih e (by simp at he; omega) h
      exact ⟨_, .oct3 hd hv hs⟩
    | @unicode u v e hu h =>
      have hpos := unicodeEscape_length_pos hu
      rw [List.length_append] at he
      obtain ⟨s, hs⟩ := ih e (by omega) h
      by_cases h1 : High v
      · cases ht : tryParseLowSurrogate e with
        | none =>
          refine ⟨_, .loneHigh hu h1 ?_ hs⟩
          rintro w l e' hw hl rfl
          rw [tryParseLow_of hw hl] at ht
          cases ht
        | some p =>
          obtain ⟨l, r⟩ := p
          obtain ⟨w, hw, hl, rfl⟩ := tryParseLow_inv ht
          rw [List.length_append] at he
          have hpos := unicodeEscape_length_pos hw
          obtain ⟨s', hs'⟩ := ih r (by omega) (stringBody_unicode hw h)
          exact ⟨_, by rw [← List.append_assoc]; exact .pair hu h1 hw hl hs'⟩
      · by_cases h2 : Low v
        · exact ⟨_, .loneLow hu h2 hs⟩
        · exact ⟨_, .unicode hu h1 h2 hs⟩

end Avdl

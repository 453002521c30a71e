import Verif.Lemmas.FloatText
import Verif.Lemmas.Tokens
/-!
# C52 Floating-point literals denote the nearest double
-/

namespace Avdl.Props
open Avdl Spec Spec.Floats Spec.Tokens

/-! ## The specification determines the value -/

/-- **C52, the value is determined.** A number that is not negative has at most one nearest
double, and rounds to one JSON value only. -/
theorem C52_determined {neg : Bool} {x : ℚ} (hx : 0 ≤ x) {j j' : Json} (h : RoundedTo neg x j)
    (h' : RoundedTo neg x j') : j = j' := by
  have hq : (x.num.toNat : ℚ) / (x.den : ℕ) = x := by
    have h1 : ((x.num.toNat : ℕ) : ℚ) = ((x.num.toNat : ℤ) : ℚ) := by push_cast; rfl
    rw [h1, Int.toNat_of_nonneg (Rat.num_nonneg.mpr hx)]
    exact Rat.num_div_den x
  obtain ⟨m₀, e₀, h₀, _⟩ := roundRat_isRound x.num.toNat (q := x.den) x.den_pos
  rw [hq] at h₀
  have hr := isRound_range h₀
  have key : ∀ {m e}, NearestDouble x m e → m = m₀ ∧ e = e₀ := fun hn =>
    nearest_isRound hn h₀ (by
      by_contra hc
      exact absurd hn.inRange (not_lt.mpr (hr.mp (by omega))))
  cases h with
  | finite h =>
    cases h' with
    | finite h' =>
      obtain ⟨rfl, rfl⟩ := key h
      obtain ⟨rfl, rfl⟩ := key h'
      rfl
    | infinite h' => exact absurd h.inRange (not_lt.mpr h')
  | infinite h =>
    cases h' with
    | finite h' => exact absurd h'.inRange (not_lt.mpr h)
    | infinite => rfl

/-! ## Texts -/

section
variable [PowTables]

omit [PowTables] in
theorem not_word {w : List Char} {c : Char} (hc : c ∈ w) (hd : c.isDigit = true) (v : String)
    (hv : ∀ d ∈ v.toList, d.isDigit = false) : String.ofList w ≠ v := by
  rintro rfl
  rw [String.toList_ofList] at hv
  rw [hv c hc] at hd
  cases hd

theorem parseFloatText_eq {sign body s : List Char} {neg : Bool} (hs : SignIs sign neg)
    (hb : ∀ c ∈ body.head?, c ≠ '-' ∧ c ≠ '+') {c : Char} (hl : body.getLast? = some c)
    (hc : c ∉ floatLetters) (hd : ∃ d ∈ body, d.isDigit = true) (hsf : Suffix s) :
    parseFloatText (String.ofList (sign ++ body ++ s)) =
      (unsignedFloat body).map (Mag.signed neg) := by
  obtain ⟨d, hd1, hd2⟩ := hd
  have hw := fun v hv => not_word (w := sign ++ body ++ s) (c := d) (by simp [hd1]) hd2 v hv
  unfold parseFloatText
  rw [if_neg (by
    rintro (h | h | h)
    · exact hw _ (by decide) h
    · exact hw _ (by decide) h
    · exact hw _ (by decide) h)]
  rw [if_neg (by
    rintro (h | h)
    · exact hw _ (by decide) h
    · exact hw _ (by decide) h)]
  rw [if_neg (hw _ (by decide))]
  have hlast : (sign ++ body).getLast? = some c := by
    rw [List.getLast?_append, hl]; rfl
  rw [String.toList_ofList, dropFloatSuffix_eq hlast hc hsf, splitSign_eq hs hb]

omit [PowTables] in
theorem digit_not_letter {c : Char} {d : ℕ} (h : IsDigit 10 c d) :
    c ∉ floatLetters ∧ c.isDigit = true ∧ c ≠ '-' ∧ c ≠ '+' ∧ c ≠ 'x' ∧ c ≠ 'X' := by
  have h1 := dec_isDigit h
  refine ⟨fun hc => ?_, h1, ?_, ?_, ?_, ?_⟩
  · simp only [floatLetters, List.mem_cons, List.not_mem_nil, or_false] at hc
    rcases hc with rfl | rfl | rfl | rfl <;> revert h1 <;> decide
  all_goals rintro rfl; revert h1; decide

omit [PowTables] in
theorem Rounds.json {neg : Bool} {x : ℚ} {r : Mag} (h : Rounds x r) {text : String}
    [FloatTables] (ht : FloatTables.parse text = some (r.signed neg)) :
    ∃ j, parseFloatingPointLiteral text = some j ∧ RoundedTo neg x j := by
  unfold parseFloatingPointLiteral
  rw [ht]
  cases h with
  | fin h => exact ⟨_, rfl, .finite h⟩
  | inf h =>
    cases neg with
    | true => exact ⟨_, rfl, .infinite h⟩
    | false => exact ⟨_, rfl, .infinite h⟩

attribute [local instance] literalFloats

/-! ## C52 -/

/-- **C52, decimal literals.** A decimal floating-point literal, with any sign and suffix, is
accepted and its value is the double nearest to the number written, or the word for infinity if
that is beyond the largest double. -/
theorem C52_decimal {sign w : List Char} {neg : Bool} {x : ℚ} (hs : SignIs sign neg)
    (h : Decimal w x) :
    ∃ j, parseFloatingPointLiteral (String.ofList (sign ++ w)) = some j ∧ RoundedTo neg x j := by
  cases h with
  | @mk a p b e s n k hp hne hn hk hsf =>
  obtain ⟨i, f, ha, hb, _⟩ := digits_append hn
  have hdig : ∀ c ∈ a ++ b, ∃ d, IsDigit 10 c d := fun c hc => digits_mem hn hc
  -- all characters
  have hchars : ∀ c ∈ a ++ p ++ b ++ e, c ≠ 'x' ∧ c ≠ 'X' := by
    intro c hc
    rcases List.mem_append.mp hc with hc | hc
    · rcases List.mem_append.mp hc with hc | hc
      · rcases List.mem_append.mp hc with hc | hc
        · obtain ⟨d, hd⟩ := hdig c (by simp [hc])
          exact (digit_not_letter hd).2.2.2.2
        · rcases hp with rfl | ⟨rfl, _⟩
          · simp only [List.mem_cons, List.not_mem_nil, or_false] at hc
            subst hc; decide
          · cases hc
      · obtain ⟨d, hd⟩ := hdig c (by simp [hc])
        exact (digit_not_letter hd).2.2.2.2
    · have hletter : ∀ {l : Char}, l ∈ ['e', 'E'] → l ≠ 'x' ∧ l ≠ 'X' := by decide
      cases hk with
      | none => cases hc
      | plus hl hsg _ hd =>
        rcases List.mem_append.mp hc with hc | hc
        · rcases List.mem_cons.mp hc with rfl | hc
          · exact hletter hl
          · simp only [List.mem_cons, List.not_mem_nil, or_false] at hsg
            rcases hsg with rfl | rfl
            · cases hc
            · simp only [List.mem_cons, List.not_mem_nil, or_false] at hc
              subst hc; decide
        · obtain ⟨d, hd⟩ := digits_mem hd hc
          exact (digit_not_letter hd).2.2.2.2
      | minus hl _ hd =>
        rcases List.mem_cons.mp hc with rfl | hc
        · exact hletter hl
        · rcases List.mem_cons.mp hc with rfl | hc
          · decide
          · obtain ⟨d, hd⟩ := digits_mem hd hc
            exact (digit_not_letter hd).2.2.2.2
  -- the first one
  have hhead : ∀ c ∈ (a ++ p ++ b ++ e).head?, c ≠ '-' ∧ c ≠ '+' := by
    intro c hc
    cases a with
    | cons y ys =>
      simp only [List.cons_append, List.head?_cons, Option.mem_def, Option.some.injEq] at hc
      subst hc
      obtain ⟨d, hd⟩ := hdig y (by simp)
      exact ⟨(digit_not_letter hd).2.2.1, (digit_not_letter hd).2.2.2.1⟩
    | nil =>
      rcases hp with rfl | ⟨rfl, rfl⟩
      · simp only [List.nil_append, List.cons_append, List.head?_cons, Option.mem_def,
          Option.some.injEq] at hc
        subst hc; decide
      · exact absurd rfl hne
  -- the last one
  have hlast : ∃ c, (a ++ p ++ b ++ e).getLast? = some c ∧ c ∉ floatLetters := by
    by_cases he : e = []
    · subst he
      rw [List.append_nil]
      by_cases hbe : b = []
      · subst hbe
        rw [List.append_nil]
        rcases hp with rfl | ⟨rfl, _⟩
        · exact ⟨'.', by simp, by decide⟩
        · rw [List.append_nil] at hne ⊢
          refine ⟨a.getLast hne, List.getLast?_eq_some_getLast hne, ?_⟩
          obtain ⟨d, hd⟩ := hdig _ (List.mem_append_left [] (List.getLast_mem hne))
          exact (digit_not_letter hd).1
      · refine ⟨b.getLast hbe, ?_, ?_⟩
        · rw [List.getLast?_append, List.getLast?_eq_some_getLast hbe]; rfl
        · obtain ⟨d, hd⟩ := hdig _ (List.mem_append_right a (List.getLast_mem hbe))
          exact (digit_not_letter hd).1
    · obtain ⟨l, es, rfl, _, ⟨c, hc, d, hd⟩, _⟩ := exponent_i32 hk he
      refine ⟨c, ?_, (digit_not_letter hd).1⟩
      rw [List.getLast?_append]
      have : (l :: es).getLast? = some c := by
        rw [List.getLast?_cons, hc]; rfl
      rw [this]; rfl
  obtain ⟨c, hc1, hc2⟩ := hlast
  have hd : ∃ d ∈ a ++ p ++ b ++ e, d.isDigit = true := by
    cases hab : a ++ b with
    | nil => exact absurd hab hne
    | cons y ys =>
      obtain ⟨d, hd⟩ := hdig y (by rw [hab]; simp)
      refine ⟨y, ?_, (digit_not_letter hd).2.1⟩
      have : y ∈ a ++ b := by rw [hab]; simp
      rcases List.mem_append.mp this with h | h <;> simp [h]
  have ht := parseFloatText_eq hs hhead hc1 hc2 hd hsf
  have hu : unsignedFloat (a ++ p ++ b ++ e) = some (scaleDecimal n (k - b.length)) := by
    have hm := decimalMag_eq hp hne hn hk
    generalize a ++ p ++ b ++ e = w at hchars hm
    unfold unsignedFloat
    split
    · exact absurd rfl (hchars 'x' (by simp)).1
    · exact absurd rfl (hchars 'X' (by simp)).2
    · rw [hm]
  rw [hu] at ht
  rw [List.append_assoc] at ht
  exact Rounds.json (scaleDecimal_rounds n _) ht

/-- The text of a hexadecimal literal, read. -/
theorem hex_text {sign w : List Char} {neg : Bool} (hs : SignIs sign neg) {c : Char}
    {a p b e s : List Char} (hc : c = 'x' ∨ c = 'X') (he : e ≠ []) {x : ℤ}
    (hx : ExponentIs ['p', 'P'] e x) (hsf : Suffix s)
    (hw : w = '0' :: c :: a ++ p ++ b ++ e ++ s) :
    FloatTables.parse (String.ofList (sign ++ w)) =
      (parseHexFloat (a ++ p ++ b ++ e)).map (Mag.signed neg) := by
  obtain ⟨l, es, hl, _, ⟨y, hy, d, hd⟩, _⟩ := exponent_i32 hx he
  have hlast : ('0' :: c :: (a ++ p ++ b ++ e)).getLast? = some y := by
    have : '0' :: c :: (a ++ p ++ b ++ e) = ('0' :: c :: (a ++ p ++ b)) ++ e := by simp
    rw [this, List.getLast?_append, hl]
    have : (l :: es).getLast? = some y := by
      rw [List.getLast?_cons, hy]; rfl
    rw [this]; rfl
  have ht := parseFloatText_eq (s := s) hs (body := '0' :: c :: (a ++ p ++ b ++ e))
    (by simp) hlast (digit_not_letter hd).1 ⟨'0', by simp, rfl⟩ hsf
  have hu : unsignedFloat ('0' :: c :: (a ++ p ++ b ++ e)) = parseHexFloat (a ++ p ++ b ++ e) := by
    rcases hc with rfl | rfl <;> rfl
  rw [hu] at ht
  show parseFloatText _ = _
  rw [← ht, hw]
  simp

/-- **C52, which hexadecimal literals are accepted.** Exactly those whose digits before the point
are a number below `2^64` and whose exponent is within 32 bits. -/
theorem C52_hex_accepted {sign w : List Char} {neg : Bool} {i places n : ℕ} {x : ℤ}
    (hs : SignIs sign neg) (h : Hexadecimal w i places n x) :
    (∃ j, parseFloatingPointLiteral (String.ofList (sign ++ w)) = some j) ↔
      i < 2 ^ 64 ∧ -(2 ^ 31) ≤ x ∧ x < 2 ^ 31 := by
  cases h with
  | @mk c a p b e s i n x hc hp hne ha hn he hx hsf =>
  obtain ⟨i', f, _, hb, _⟩ := digits_append hn
  have ht := hex_text (a := a) (p := p) (b := b) (s := s) hs hc he hx hsf rfl
  have hm := parseHexFloat_eq hp hne ha hb he hx
  unfold parseFloatingPointLiteral
  rw [ht]
  constructor
  · intro h
    by_contra hcon
    rw [hm.1 hcon] at h
    simp at h
  · intro h
    obtain ⟨r, _, hr⟩ := hm.2 h
    rw [hr]
    cases r.mul (PowTables.pow2 x) with
    | nan => exact ⟨_, rfl⟩
    | inf => cases neg <;> exact ⟨_, rfl⟩
    | fin m e => exact ⟨_, rfl⟩

/-- A mantissa that is not zero, times infinity. -/
theorem mul_large {r : Mag} {v : ℚ} (hr : r.Is v) (hv : v ≠ 0) {x : ℤ} (hx : 1024 ≤ x) :
    r.mul (PowTables.pow2 x) = .inf := by
  obtain ⟨m, e, rfl, _, rfl⟩ := hr
  rw [PowTables.large x hx]
  have : m ≠ 0 := by rintro rfl; exact hv (by simp [dyadic])
  simp [Mag.mul, this]

/-- **C52, hexadecimal literals (partial).** The value of a hexadecimal floating-point literal is
the double nearest to the number written, or the word for infinity, provided that the digits make up
at most 53 bits, or at most 64 bits without digits after the point; that the exponent is at least
`-1022`; and that it is at most `1023`, or the number is beyond the largest double anyway.

Missing: the other hexadecimal literals.  For these the claim is false, see the theorems
`C52_fails_…` below. -/
theorem C52_hex_partial {sign w : List Char} {neg : Bool} {i places n : ℕ} {x : ℤ}
    (hs : SignIs sign neg) (h : Hexadecimal w i places n x)
    (hdigits : (n < 2 ^ 53 ∧ places ≤ 268) ∨ (n < 2 ^ 64 ∧ places = 0))
    (hlow : -1022 ≤ x) (hhigh : x ≤ 1023 ∨ (x < 2 ^ 31 ∧ tooLarge ≤ hexValue places n x)) :
    ∃ j, parseFloatingPointLiteral (String.ofList (sign ++ w)) = some j ∧
      RoundedTo neg (hexValue places n x) j := by
  cases h with
  | @mk c a p b e s i n x hc hp hne ha hn he hx hsf =>
  obtain ⟨i', f, ha', hb, hin⟩ := digits_append hn
  have := digits_unique (by omega) ha ha'
  subst this
  have h16 : 1 ≤ 16 ^ b.length := Nat.one_le_pow _ _ (by omega)
  have hi : i ≤ i * 16 ^ b.length := Nat.le_mul_of_pos_right _ h16
  have ht := hex_text (a := a) (p := p) (b := b) (s := s) hs hc he hx hsf rfl
  obtain ⟨r, hr, hv⟩ := (parseHexFloat_eq hp hne ha hb he hx).2 ⟨by omega, by omega, by omega⟩
  rw [hv] at ht
  refine Rounds.json ?_ ht
  have hval : hexValue b.length n x = (n : ℚ) / 16 ^ b.length * 2 ^ x := by
    unfold hexValue
    rw [pow16, zpow_sub₀ (by norm_num)]
    field_simp
  have hzero : tooLarge ≤ hexValue b.length n x → n ≠ 0 := by
    rintro h rfl
    have : hexValue b.length 0 x = 0 := by simp [hexValue]
    rw [this] at h
    have hd : (0 : ℚ) < tooLarge := Spec.Floats.IsDouble.lt_tooLarge
      (by simpa using isDouble_nat (n := 0) (by norm_num))
    linarith
  rcases hdigits with ⟨h53, hl⟩ | ⟨h64, hl⟩
  · have hri := hexMantissa_is hp hne ha hn h53 (by omega) hr
    by_cases hx1 : x ≤ 1023
    · rw [hval]
      exact hri.mul (pow2_is hlow hx1)
    · have hbig := (hhigh.resolve_left hx1).2
      rw [mul_large hri (by
        have := hzero hbig
        have : (n : ℚ) ≠ 0 := by exact_mod_cast this
        positivity) (by omega)]
      exact .inf hbig
  · have hbn : b = [] := List.eq_nil_of_length_eq_zero hl
    subst hbn
    cases hb
    simp only [List.append_nil, List.length_nil, pow_zero, mul_one, add_zero] at hin hne hr
    subst hin
    rw [hexMantissa_int hp hne ha h64] at hr
    injection hr with hr
    subst hr
    by_cases hx1 : x ≤ 1023
    · rw [hval]
      simpa using scaled_rounds h64 hlow hx1
    · have hbig := (hhigh.resolve_left hx1).2
      obtain ⟨v, hv, hv0⟩ := roundNat_some h64
      rw [mul_large hv (hv0 (hzero hbig)) (by omega)]
      exact .inf hbig

/-- **C52, words.** `NaN` is the word for no number, whatever its sign; `Infinity` keeps its sign. -/
theorem C52_words {sign : List Char} {neg : Bool} (hs : SignIs sign neg) :
    parseFloatingPointLiteral (String.ofList (sign ++ "NaN".toList)) = some (.str "NaN") ∧
    parseFloatingPointLiteral (String.ofList (sign ++ "Infinity".toList)) =
      some (.str (if neg then "-Infinity" else "Infinity")) := by
  rcases hs with ⟨rfl, rfl⟩ | ⟨hs, rfl⟩
  · exact ⟨rfl, rfl⟩
  · simp only [List.mem_cons, List.not_mem_nil, or_false] at hs
    rcases hs with rfl | rfl <;> exact ⟨rfl, rfl⟩

end

/-! ### Every token is one of these -/

theorem dec_digit {c : Char} (h : Dec c) : ∃ d, IsDigit 10 c d := by
  unfold Dec at h
  have hc : c = Char.ofNat (48 + (c.toNat - 48)) := char_of_toNat (by omega)
  refine ⟨c.toNat - 48, by omega, .inl ?_⟩
  rw [(lower_digits _ (by omega)).1, ← hc]

theorem hex_digit {c : Char} (h : Hex c) : ∃ d, IsDigit 16 c d := by
  rcases h with h | h | h
  · obtain ⟨d, hd⟩ := dec_digit h
    exact ⟨d, by have := hd.1; omega, hd.2⟩
  · have hc : c = Char.ofNat (55 + (c.toNat - 55)) := char_of_toNat (by omega)
    refine ⟨c.toNat - 55, by omega, .inr ?_⟩
    rw [(letter_digits _ (by omega) (by omega)).2, ← hc]
  · have hc : c = Char.ofNat (87 + (c.toNat - 87)) := char_of_toNat (by omega)
    refine ⟨c.toNat - 87, by omega, .inl ?_⟩
    rw [(letter_digits _ (by omega) (by omega)).1, ← hc]

theorem digits_of {r : ℕ} {P : Char → Prop} (hP : ∀ {c}, P c → ∃ d, IsDigit r c d) :
    ∀ {cs : List Char}, All P cs → ∃ n, Digits r cs n
  | [], _ => ⟨0, .nil⟩
  | c :: cs, h => by
      obtain ⟨d, hd⟩ := hP (h c (by simp))
      obtain ⟨n, hn⟩ := digits_of hP (cs := cs) fun x hx => h x (by simp [hx])
      exact ⟨_, .cons hd hn⟩

theorem all_append {P : Char → Prop} {a b : List Char} (ha : All P a) (hb : All P b) :
    All P (a ++ b) := fun c hc => (List.mem_append.mp hc).elim (ha c) (hb c)

theorem exponentIs_of {letters e : List Char} (h : Exponent letters e) :
    ∃ x, ExponentIs letters e x ∧ e ≠ [] := by
  obtain ⟨l, sign, cs, rfl, hl, hs, hne, hd⟩ := h
  obtain ⟨n, hn⟩ := digits_of dec_digit hd
  simp only [anySign, List.mem_cons, List.not_mem_nil, or_false] at hs
  rcases hs with rfl | rfl | rfl
  · exact ⟨_, .plus hl (by simp) hne hn, by simp⟩
  · exact ⟨_, .minus hl hne hn, by simp⟩
  · exact ⟨_, .plus hl (by simp) hne hn, by simp⟩

/-- **C52, every token.** The text of a floating-point token is a word, a decimal or a hexadecimal
literal with a sign or without, so that one of the theorems above says what it means. -/
theorem C52_tokens {w : List Char} (h : FloatText w) :
    ∃ sign neg body, w = sign ++ body ∧ SignIs sign neg ∧
      (body = "NaN".toList ∨ body = "Infinity".toList ∨ (∃ x, Decimal body x) ∨
        ∃ i places n x, Hexadecimal body i places n x) := by
  obtain ⟨sign, body, rfl, hs, hb⟩ := h
  have hsign : ∃ neg, SignIs sign neg := by
    simp only [anySign, List.mem_cons, List.not_mem_nil, or_false] at hs
    rcases hs with rfl | rfl | rfl
    · exact ⟨false, .inr ⟨by simp, rfl⟩⟩
    · exact ⟨true, .inl ⟨rfl, rfl⟩⟩
    · exact ⟨false, .inr ⟨by simp, rfl⟩⟩
  obtain ⟨neg, hneg⟩ := hsign
  refine ⟨sign, neg, body, rfl, hneg, ?_⟩
  rcases hb with h | h | h | h
  · exact .inl h
  · exact .inr (.inl h)
  · refine .inr (.inr (.inl ?_))
    cases h with
    | @point a b e s ha hb hne he hsf =>
      obtain ⟨n, hn⟩ := digits_of dec_digit (all_append ha hb)
      have hex : ∃ x, ExponentIs ['e', 'E'] e x := by
        rcases he with rfl | he
        · exact ⟨0, .none⟩
        · obtain ⟨x, hx, _⟩ := exponentIs_of he; exact ⟨x, hx⟩
      obtain ⟨x, hx⟩ := hex
      refine ⟨n * 10 ^ (x - b.length), ?_⟩
      have := Decimal.mk (a := a) (p := ['.']) (b := b) (.inl rfl) (by
        rcases hne with h | h <;> simp [h]) hn hx hsf
      simpa only [List.append_assoc, List.cons_append, List.nil_append] using this
    | @exponent a e s ha he hsf =>
      obtain ⟨n, hn⟩ := digits_of dec_digit ha.2
      obtain ⟨x, hx, _⟩ := exponentIs_of he
      have := Decimal.mk (a := a) (p := []) (b := []) (.inr ⟨rfl, rfl⟩) (by simpa using ha.1)
        (by simpa using hn) hx hsf
      simp only [List.append_nil] at this
      exact ⟨_, this⟩
    | @suffix a s ha hsf =>
      obtain ⟨n, hn⟩ := digits_of dec_digit ha.2
      have := Decimal.mk (a := a) (p := []) (b := []) (e := []) (s := [s]) (.inr ⟨rfl, rfl⟩)
        (by simpa using ha.1) (by simpa using hn) .none (.inr ⟨s, rfl, hsf⟩)
      simp only [List.append_nil] at this
      exact ⟨_, this⟩
  · refine .inr (.inr (.inr ?_))
    cases h with
    | @plain c a p e s hc ha hp he hsf =>
      obtain ⟨n, hn⟩ := digits_of hex_digit ha.2
      obtain ⟨x, hx, hne⟩ := exponentIs_of he
      refine ⟨n, 0, n, x, ?_⟩
      have hp' : Point p [] := by
        simp only [List.mem_cons, List.not_mem_nil, or_false] at hp
        rcases hp with rfl | rfl
        · exact .inr ⟨rfl, rfl⟩
        · exact .inl rfl
      have := Hexadecimal.mk (a := a) (b := []) hc hp' (by simpa using ha.1) hn
        (by simpa using hn) hne hx hsf
      simpa using this
    | @point c a b e s hc ha hb he hsf =>
      obtain ⟨i, hi⟩ := digits_of hex_digit ha
      obtain ⟨n, hn⟩ := digits_of hex_digit (all_append ha hb.2)
      obtain ⟨x, hx, hne⟩ := exponentIs_of he
      refine ⟨i, b.length, n, x, ?_⟩
      have := Hexadecimal.mk (a := a) (p := ['.']) (b := b) hc (.inl rfl) (by simp [hb.1]) hi hn
        hne hx hsf
      simpa using this

/-! ### What is not so -/

theorem digits_read {r v : ℕ} {cs : List Char} (hr : r ≤ 16) (h : digitsFrom r 0 cs = some v) :
    Digits r cs v := by
  obtain ⟨w, hw, hv⟩ := (digitsFrom_iff hr cs 0 v).mp h
  have : v = w := by omega
  exact this ▸ hw

/-- `0x0p1024` -/
theorem hexLitZero : Hexadecimal "0x0p1024".toList 0 0 0 1024 :=
  .mk (a := ['0']) (p := []) (b := []) (e := 'p' :: [] ++ "1024".toList) (s := []) (n := 0)
    (.inl rfl) (.inr ⟨rfl, rfl⟩) (by simp) (digits_read (by omega) (by decide))
    (digits_read (by omega) (by decide)) (by decide)
    (.plus (n := 1024) (by simp) (by simp) (by decide) (digits_read (by omega) (by decide)))
    (.inl rfl)

/-- `0x.8p1024` -/
theorem hexLitHalf : Hexadecimal "0x.8p1024".toList 0 1 8 1024 :=
  .mk (a := []) (p := ['.']) (b := ['8']) (e := 'p' :: [] ++ "1024".toList) (s := []) (n := 8)
    (.inl rfl) (.inl rfl) (by simp) (digits_read (by omega) (by decide))
    (digits_read (by omega) (by decide)) (by decide)
    (.plus (n := 1024) (by simp) (by simp) (by decide) (digits_read (by omega) (by decide)))
    (.inl rfl)

/-- `0x0.800000000000040001p0` -/
theorem hexLitTwice : Hexadecimal "0x0.800000000000040001p0".toList 0 18 0x800000000000040001 0 :=
  .mk (a := ['0']) (p := ['.']) (b := "800000000000040001".toList) (e := 'p' :: [] ++ ['0'])
    (s := []) (n := 0x800000000000040001)
    (.inl rfl) (.inl rfl) (by simp) (digits_read (by omega) (by decide))
    (digits_read (by omega) (by decide)) (by decide)
    (.plus (n := 0) (by simp) (by simp) (by decide) (digits_read (by omega) (by decide)))
    (.inl rfl)

/-- `0x10000000000000000p0` -/
theorem hexLitLong : Hexadecimal "0x10000000000000000p0".toList (2 ^ 64) 0 (2 ^ 64) 0 :=
  .mk (a := "10000000000000000".toList) (p := []) (b := []) (e := 'p' :: [] ++ ['0']) (s := [])
    (.inl rfl) (.inr ⟨rfl, rfl⟩) (by simp) (digits_read (by omega) (by decide))
    (digits_read (by omega) (by decide)) (by decide)
    (.plus (n := 0) (by simp) (by simp) (by decide) (digits_read (by omega) (by decide)))
    (.inl rfl)

/-- `0x1p-2147483649` -/
theorem hexLitTiny : Hexadecimal "0x1p-2147483649".toList 1 0 1 (-2147483649) :=
  .mk (a := ['1']) (p := []) (b := []) (e := 'p' :: '-' :: "2147483649".toList) (s := [])
    (.inl rfl) (.inr ⟨rfl, rfl⟩) (by simp) (digits_read (by omega) (by decide))
    (digits_read (by omega) (by decide)) (by decide)
    (.minus (n := 2147483649) (by simp) (by decide) (digits_read (by omega) (by decide)))
    (.inl rfl)

/-- `0x1p-1074` -/
theorem hexLitLeast : Hexadecimal "0x1p-1074".toList 1 0 1 (-1074) :=
  .mk (a := ['1']) (p := []) (b := []) (e := 'p' :: '-' :: "1074".toList) (s := [])
    (.inl rfl) (.inr ⟨rfl, rfl⟩) (by simp) (digits_read (by omega) (by decide))
    (digits_read (by omega) (by decide)) (by decide)
    (.minus (n := 1074) (by simp) (by decide) (digits_read (by omega) (by decide)))
    (.inl rfl)

section
variable [PowTables]
attribute [local instance] literalFloats

theorem powi_large : PowTables.pow2 1024 = .inf := PowTables.large 1024 (by omega)

omit [PowTables] in
theorem tooLarge_pos : (0 : ℚ) < tooLarge := Spec.Floats.IsDouble.lt_tooLarge
  (by simpa using isDouble_nat (n := 0) (by norm_num))

/-- **C52 fails for zeros with a large exponent.** `0x0p1024` is zero but is read as `NaN`. -/
theorem C52_fails_zero : hexValue 0 0 1024 = 0 ∧
    parseFloatingPointLiteral "0x0p1024" = some (.str "NaN") ∧
    ¬ RoundedTo false 0 (.str "NaN") := by
  refine ⟨by simp [hexValue], ?_, ?_⟩
  · have ht : parseFloatText "0x0p1024" = some .nan := by
      have h1 : parseFloatText "0x0p1024" =
          ((Mag.fin 0 (-1074)).mul (PowTables.pow2 1024) |> some).map (Mag.signed false) := by rfl
      rw [h1, powi_large]; rfl
    unfold parseFloatingPointLiteral
    have : FloatTables.parse "0x0p1024" = some .nan := ht
    rw [this]
  · intro h
    generalize hj : Json.str "NaN" = j at h
    cases h with
    | finite => cases hj
    | infinite h => exact absurd tooLarge_pos (not_lt.mpr h)

/-- **C52 fails for fractions with a large exponent.** `0x.8p1024` is `2^1023`, a double, but is
read as infinity. -/
theorem C52_fails_fraction : hexValue 1 8 1024 = 2 ^ (1023 : ℤ) ∧ IsDouble (2 ^ (1023 : ℤ)) ∧
    parseFloatingPointLiteral "0x.8p1024" = some (.str "Infinity") ∧
    ¬ RoundedTo false (2 ^ (1023 : ℤ)) (.str "Infinity") := by
  have hd : IsDouble (2 ^ (1023 : ℤ)) :=
    ⟨2 ^ 52, 971, by norm_num, by norm_num, le_refl _, (dyadic_pow 1023).symm⟩
  refine ⟨?_, hd, ?_, ?_⟩
  · unfold hexValue
    rw [show ((8 : ℕ) : ℚ) = 2 ^ (3 : ℤ) by norm_num, ← zpow_add₀ (by norm_num)]
    norm_num
  · have ht : FloatTables.parse "0x.8p1024" = some .posInf := by
      have h1 : parseFloatText "0x.8p1024" =
          ((Mag.fin (2 ^ 52) (-53)).mul (PowTables.pow2 1024) |> some).map (Mag.signed false) := by
        show (parseHexFloat ".8p1024".toList).map (Mag.signed false) = _
        have hm : hexMantissa ".8".toList = some (.fin (2 ^ 52) (-53)) := by decide +kernel
        show ((match hexMantissa ".8".toList with
          | none => none
          | some m => some (m.mul (PowTables.pow2 1024))).map (Mag.signed false)) = _
        rw [hm]
      show parseFloatText _ = _
      rw [h1, powi_large]; rfl
    unfold parseFloatingPointLiteral
    rw [ht]
  · intro h
    generalize hj : Json.str "Infinity" = j at h
    cases h with
    | finite => cases hj
    | infinite h => exact absurd (Spec.Floats.IsDouble.lt_tooLarge hd) (not_lt.mpr h)

/-- **C52 fails for long fractions.** The digits after the point are added one by one, rounding each
time: `0x0.800000000000040001p0` is read as one half, but the next double is nearer. -/
theorem C52_fails_long_fraction :
    parseFloatingPointLiteral "0x0.800000000000040001p0" = some (.num (.float false (2 ^ 52) (-53))) ∧
    ¬ RoundedTo false (hexValue 18 0x800000000000040001 0) (.num (.float false (2 ^ 52) (-53))) ∧
    RoundedTo false (hexValue 18 0x800000000000040001 0)
      (.num (.float false (2 ^ 52 + 1) (-53))) := by
  have hr : RoundedTo false (hexValue 18 0x800000000000040001 0)
      (.num (.float false (2 ^ 52 + 1) (-53))) := by
    have h1 := roundDyadic_rounds 0x800000000000040001 (-72)
    have h2 : roundDyadic 0x800000000000040001 (-72) = .fin (2 ^ 52 + 1) (-53) := by
      decide +kernel
    rw [h2] at h1
    have h3 : hexValue 18 0x800000000000040001 0 = dyadic 0x800000000000040001 (-72) := by
      unfold hexValue dyadic; norm_num
    rw [h3]
    cases h1 with
    | fin h => exact .finite h
  refine ⟨?_, fun h => ?_, hr⟩
  · have hm : hexMantissa "0.800000000000040001".toList = some (.fin (2 ^ 52) (-53)) := by
      decide +kernel
    have ht : FloatTables.parse "0x0.800000000000040001p0" =
        some (.finite false (2 ^ 52) (-53)) := by
      show ((match hexMantissa "0.800000000000040001".toList with
          | none => none
          | some m => some (m.mul (PowTables.pow2 0))).map (Mag.signed false)) = _
      rw [hm, PowTables.exact 0 (by omega) (by omega)]
      decide +kernel
    unfold parseFloatingPointLiteral
    rw [ht]
  · have := C52_determined (by unfold hexValue; positivity) h hr
    simp at this

/-- **C52 fails for long numbers.** `0x10000000000000000p0`, which is `2^64`, is rejected. -/
theorem C52_fails_long_number : IsDouble (hexValue 0 (2 ^ 64) 0) ∧
    parseFloatingPointLiteral "0x10000000000000000p0" = none := by
  refine ⟨⟨1, 64, by norm_num, by norm_num, by norm_num, ?_⟩, ?_⟩
  · unfold hexValue dyadic; norm_num
  · have h := C52_hex_accepted (sign := []) (neg := false) (.inr ⟨by simp, rfl⟩) hexLitLong
    have h' : ¬ ∃ j, parseFloatingPointLiteral "0x10000000000000000p0" = some j :=
      fun hj => absurd (h.mp hj).1 (by norm_num)
    cases hp : parseFloatingPointLiteral "0x10000000000000000p0" with
    | none => rfl
    | some j => exact absurd ⟨j, hp⟩ h'

/-- **C52 fails for huge exponents.** `0x1p-2147483649` is rejected although its nearest double is
zero. -/
theorem C52_fails_exponent :
    RoundedTo false (hexValue 0 1 (-2147483649)) (.num (.float false 0 (-1074))) ∧
    parseFloatingPointLiteral "0x1p-2147483649" = none := by
  refine ⟨.finite ?_, ?_⟩
  · apply IsRound.nearest _ (by norm_num)
    have hv : hexValue 0 1 (-2147483649) / 2 ^ (-1074 : ℤ) ≤ 1 / 4 := by
      unfold hexValue
      rw [div_le_iff₀ (two_zpow_pos _)]
      have : (1 : ℚ) / 4 = 2 ^ (-2 : ℤ) := by norm_num
      rw [this, ← zpow_add₀ (by norm_num)]
      simp only [Nat.cast_one, one_mul]
      exact zpow_le_zpow_right₀ (by norm_num) (by norm_num)
    have h0 : 0 ≤ hexValue 0 1 (-2147483649) / 2 ^ (-1074 : ℤ) := by unfold hexValue; positivity
    refine ⟨le_refl _, by norm_num, .inr rfl, ?_, fun _ => rfl, fun h => absurd rfl h⟩
    rw [Nat.cast_zero, sub_zero, abs_of_nonneg h0]
    linarith
  · have h := C52_hex_accepted (sign := []) (neg := false) (.inr ⟨by simp, rfl⟩) hexLitTiny
    have h' : ¬ ∃ j, parseFloatingPointLiteral "0x1p-2147483649" = some j :=
      fun hj => absurd (h.mp hj).2.1 (by norm_num)
    cases hp : parseFloatingPointLiteral "0x1p-2147483649" with
    | none => rfl
    | some j => exact absurd ⟨j, hp⟩ h'

end

/-- Powers by repeated multiplication and, for negative exponents, a reciprocal, as in the runtime
library of the usual compilers. -/
@[reducible] def multipliedPowers : PowTables where
  pow2 e :=
    if -1022 ≤ e ∧ e ≤ 1023 then .fin (2 ^ 52) (e - 52)
    else if 1024 ≤ e then .inf
    else if e = -1023 then .fin (2 ^ 51) (-1074)
    else .fin 0 (-1074)
  exact e h1 h2 := if_pos ⟨h1, h2⟩
  large e h := by rw [if_neg (by omega), if_pos h]

/-- **C52 fails for the smallest numbers**, if powers of two are multiplied up and inverted:
`0x1p-1074` is a double but is read as zero. -/
theorem C52_fails_subnormal :
    IsDouble (hexValue 0 1 (-1074)) ∧
    @parseFloatingPointLiteral (@literalFloats multipliedPowers) "0x1p-1074" =
      some (.num (.float false 0 (-1074))) ∧
    ¬ RoundedTo false (hexValue 0 1 (-1074)) (.num (.float false 0 (-1074))) := by
  have hv : hexValue 0 1 (-1074) = 2 ^ (-1074 : ℤ) := by simp [hexValue]
  have hd : IsDouble (2 ^ (-1074 : ℤ)) :=
    ⟨1, -1074, by norm_num, le_refl _, by norm_num, by simp [dyadic]⟩
  rw [hv]
  refine ⟨hd, by decide +kernel, fun h => ?_⟩
  cases h with
  | finite h =>
    have := h.nearest _ hd
    rw [sub_self, abs_zero] at this
    have := abs_eq_zero.mp (le_antisymm this (abs_nonneg _))
    have h2 := two_zpow_pos (-1074)
    simp only [dyadic, Nat.cast_zero, zero_mul, sub_zero] at this
    exact absurd this h2.ne'

/-! ### Examples -/

section
attribute [local instance] multipliedPowers literalFloats

/-- Some literals. -/
example :
    parseFloatingPointLiteral "0.1" = some (.num (.float false 7205759403792794 (-56))) ∧
    parseFloatingPointLiteral "-1e400d" = some (.str "-Infinity") ∧
    parseFloatingPointLiteral "+.5E-1F" = some (.num (.float false 7205759403792794 (-57))) ∧
    parseFloatingPointLiteral "0x1.8p10" = some (.num (.float false (3 * 2 ^ 51) (-42))) ∧
    parseFloatingPointLiteral "-0X.8P1f" = some (.num (.float true (2 ^ 52) (-52))) ∧
    parseFloatingPointLiteral "4.9e-324" = some (.num (.float false 1 (-1074))) ∧
    parseFloatingPointLiteral "9007199254740993." =
      some (.num (.float false 4503599627370496 1)) := by decide +kernel

/-- `-12.5e1d` is a decimal literal. -/
example : SignIs ['-'] true ∧ Decimal "12.5e1d".toList (125 * 10 ^ ((1 : ℤ) - 1)) :=
  ⟨.inl ⟨rfl, rfl⟩, .mk (a := ['1', '2']) (p := ['.']) (b := ['5']) (e := 'e' :: [] ++ ['1'])
    (s := ['d']) (n := 125) (.inl rfl) (by simp) (digits_read (by omega) (by decide))
    (.plus (n := 1) (by simp) (by simp) (by decide) (digits_read (by omega) (by decide)))
    (.inr ⟨'d', rfl, by decide⟩)⟩

/-- `0x1.fffffffffffffp1023`, the largest double, meets the conditions of `C52_hex_partial`. -/
example : Hexadecimal "0x1.fffffffffffffp1023".toList 1 13 0x1fffffffffffff 1023 ∧
    0x1fffffffffffff < 2 ^ 53 :=
  ⟨.mk (a := ['1']) (p := ['.']) (b := "fffffffffffff".toList) (e := 'p' :: [] ++ "1023".toList)
    (s := []) (.inl rfl) (.inl rfl) (by simp) (digits_read (by omega) (by decide))
    (digits_read (by omega) (by decide)) (by decide)
    (.plus (n := 1023) (by simp) (by simp) (by decide) (digits_read (by omega) (by decide)))
    (.inl rfl), by norm_num⟩

end

end Avdl.Props

import Verif.Lemmas.FloatOps
import Verif.Lemmas.Literals
/-!
# Reading floating-point literals

The parts of a literal are found and converted as their notation says.
-/

namespace Avdl
open Spec Spec.Floats Spec.Tokens

/-! ## Texts -/

theorem splitOnce_some {p : Char → Bool} {x : Char} {b : List Char} : ∀ {a : List Char},
    (∀ c ∈ a, p c = false) → p x = true → splitOnce p (a ++ x :: b) = some (a, b)
  | [], _, hx => by simp [splitOnce, hx]
  | c :: cs, h, hx => by
      simp only [List.cons_append, splitOnce, h c (by simp)]
      rw [splitOnce_some (fun d hd => h d (by simp [hd])) hx]
      simp

theorem splitOnce_none {p : Char → Bool} : ∀ {a : List Char},
    (∀ c ∈ a, p c = false) → splitOnce p a = none
  | [], _ => rfl
  | c :: cs, h => by
      simp only [splitOnce, h c (by simp)]
      rw [splitOnce_none (fun d hd => h d (by simp [hd]))]
      simp

theorem dropFloatSuffix_eq {w s : List Char} {c : Char} (hw : w.getLast? = some c)
    (hc : c ∉ floatLetters) (hs : Suffix s) : dropFloatSuffix (w ++ s) = w := by
  unfold dropFloatSuffix
  rcases hs with rfl | ⟨x, rfl, hx⟩
  · rw [List.append_nil, hw]
    simp only [floatLetters, List.mem_cons, List.not_mem_nil, or_false, not_or] at hc
    split <;> simp_all
  · rw [List.getLast?_append]
    simp only [floatLetters, List.mem_cons, List.not_mem_nil, or_false] at hx
    rcases hx with rfl | rfl | rfl | rfl <;> simp

theorem splitSign_eq {sign body : List Char} {neg : Bool} (h : SignIs sign neg)
    (hb : ∀ c ∈ body.head?, c ≠ '-' ∧ c ≠ '+') : splitSign (sign ++ body) = (neg, body) := by
  rcases h with ⟨rfl, rfl⟩ | ⟨h, rfl⟩
  · rfl
  · simp only [List.mem_cons, List.not_mem_nil, or_false] at h
    rcases h with rfl | rfl
    · cases body with
      | nil => rfl
      | cons c cs =>
        have := hb c (by simp)
        simp only [List.nil_append]
        unfold splitSign
        split
        · rename_i h; injection h with h; exact absurd h this.1
        · rename_i h; injection h with h; exact absurd h this.2
        · rfl
    · rfl

/-! ## Digits -/

theorem digit_cons {r : Nat} {c : Char} {cs : List Char} {v : Nat} (h : Digits r (c :: cs) v) :
    ∃ d v', IsDigit r c d ∧ Digits r cs v' ∧ v = d * r ^ cs.length + v' := by
  cases h with
  | cons h1 h2 => exact ⟨_, _, h1, h2, rfl⟩

theorem digits_append {r : Nat} : ∀ {a b : List Char} {n : Nat}, Digits r (a ++ b) n →
    ∃ i f, Digits r a i ∧ Digits r b f ∧ n = i * r ^ b.length + f
  | [], b, n, h => ⟨0, n, .nil, h, by simp⟩
  | c :: cs, b, n, h => by
      obtain ⟨d, v, h1, h2, rfl⟩ := digit_cons h
      obtain ⟨i, f, h3, h4, rfl⟩ := digits_append h2
      refine ⟨_, f, .cons h1 h3, h4, ?_⟩
      show d * r ^ (cs ++ b).length + _ = _
      rw [List.length_append, Nat.pow_add]
      ring

theorem digits_unique {r : Nat} (hr : r ≤ 16) {cs : List Char} {v v' : Nat} (h : Digits r cs v)
    (h' : Digits r cs v') : v = v' := by
  have h1 := (digitsFrom_iff hr cs 0 v).mpr ⟨v, h, by simp⟩
  have h2 := (digitsFrom_iff hr cs 0 v').mpr ⟨v', h', by simp⟩
  rw [h1] at h2
  exact Option.some.inj h2

theorem u64FromHex_eq {a : List Char} {i : Nat} (hne : a ≠ []) (h : Digits 16 a i) :
    u64FromHex a = if i < 2 ^ 64 then some i else none := by
  cases a with
  | nil => exact absurd rfl hne
  | cons c cs =>
    obtain ⟨d, _, hd, _⟩ := digit_cons h
    have hp : c ≠ '+' := digit_ne (by omega) hd (by decide)
    unfold u64FromHex
    split
    · rename_i h; injection h with h; exact absurd h hp
    · rw [parseDigits_of (by omega) hne h]

theorem exponent_i32 {letters e : List Char} {x : ℤ} (h : ExponentIs letters e x) (hne : e ≠ []) :
    ∃ l es, e = l :: es ∧ l ∈ letters ∧ (∃ c, es.getLast? = some c ∧ ∃ d, IsDigit 10 c d) ∧
      i32FromStr es = if -(2 ^ 31) ≤ x ∧ x < 2 ^ 31 then some x else none := by
  have last : ∀ {pre ds : List Char} {n : ℕ}, ds ≠ [] → Digits 10 ds n →
      ∃ c, (pre ++ ds).getLast? = some c ∧ ∃ d, IsDigit 10 c d := by
    intro pre ds n hne hd
    refine ⟨ds.getLast hne, ?_, digits_mem hd (List.getLast_mem hne)⟩
    rw [List.getLast?_append, List.getLast?_eq_some_getLast hne]; rfl
  cases h with
  | none => exact absurd rfl hne
  | @plus l sign ds n hl hs hd h =>
    refine ⟨l, sign ++ ds, rfl, hl, last hd h, ?_⟩
    have hx : (-(2 ^ 31) ≤ (n : ℤ) ∧ (n : ℤ) < 2 ^ 31) ↔ n < 2 ^ 31 := by omega
    simp only [hx]
    simp only [List.mem_cons, List.not_mem_nil, or_false] at hs
    rcases hs with rfl | rfl
    · cases ds with
      | nil => exact absurd rfl hd
      | cons c cs =>
        obtain ⟨d, _, h0, _⟩ := digit_cons h
        have h1 : c ≠ '-' := digit_ne (by omega) h0 (by decide)
        have h2 : c ≠ '+' := digit_ne (by omega) h0 (by decide)
        simp only [List.nil_append]
        unfold i32FromStr
        split
        · rename_i h; injection h with h; exact absurd h h1
        · rename_i h; injection h with h; exact absurd h h2
        · rw [parseDigits_of (by omega) hd h]
    · simp only [List.cons_append, List.nil_append, i32FromStr, parseDigits_of (r := 10) (by omega) hd h]
  | @minus l ds n hl hd h =>
    refine ⟨l, '-' :: ds, rfl, hl, last (pre := ['-']) hd h, ?_⟩
    have hx : (-(2 ^ 31) ≤ -(n : ℤ) ∧ -(n : ℤ) < 2 ^ 31) ↔ n ≤ 2 ^ 31 := by omega
    simp only [hx, i32FromStr, parseDigits_of (r := 10) (by omega) hd h]

/-! ## Hexadecimal literals -/

theorem pow16 (k : ℕ) : (16 : ℚ) ^ k = 2 ^ (4 * (k : ℤ)) := by
  rw [zpow_mul, zpow_natCast]; norm_num

theorem frac16 (n k : ℕ) : (n : ℚ) / 16 ^ k = dyadic n (-(4 * (k : ℤ))) := by
  unfold dyadic
  rw [pow16, zpow_neg, div_eq_mul_inv]

theorem isDouble_frac16 {n k : ℕ} (hn : n < 2 ^ 53) (hk : 4 * k ≤ 1074) :
    IsDouble ((n : ℚ) / 16 ^ k) := by
  rw [frac16]
  exact isDouble_dyadic hn (by omega) (by omega)

theorem isDouble_nat {n : ℕ} (hn : n < 2 ^ 53) : IsDouble (n : ℚ) := by
  have := isDouble_frac16 (n := n) (k := 0) hn (by omega)
  simpa using this

theorem roundNat_is {n : ℕ} (hn : n < 2 ^ 53) : (roundRat n 1).Is n := by
  have := roundRat_exact n (q := 1) one_pos (by simpa using isDouble_nat hn)
  simpa using this

theorem roundNat_some {n : ℕ} (hn : n < 2 ^ 64) :
    ∃ v, (roundRat n 1).Is v ∧ (n ≠ 0 → v ≠ 0) := by
  have h1 := roundRat_rounds n (q := 1) one_pos
  simp only [Nat.cast_one, div_one] at h1
  generalize roundRat n 1 = r at h1
  cases h1 with
  | fin h =>
    refine ⟨_, ⟨_, _, rfl, h.stored, rfl⟩, fun h0 hv => ?_⟩
    have hle := h.nearest 1 (by simpa using isDouble_nat (n := 1) (by norm_num))
    have hn1 : (1 : ℚ) ≤ n := by exact_mod_cast Nat.pos_of_ne_zero h0
    rw [hv, sub_zero, abs_of_nonneg (by linarith), abs_of_nonneg (by linarith)] at hle
    linarith
  | inf h =>
    exfalso
    have hn2 : (n : ℚ) < 2 ^ 64 := by exact_mod_cast hn
    unfold tooLarge at h
    have a5 : (2 : ℚ) ^ 1024 = 2 ^ 970 * 2 ^ 54 := by rw [← pow_add]
    have a6 : (2 : ℚ) ^ 64 ≤ 2 ^ 970 := pow_le_pow_right₀ (by norm_num) (by norm_num)
    rw [a5] at h
    clear a5
    generalize (2 : ℚ) ^ 970 = T at *
    linarith

/-- The digits after the point are added up exactly as long as there are at most 53 bits. -/
theorem hexFraction_is : ∀ {cs : List Char} {n v j : ℕ} {val place : Mag}, Digits 16 cs n →
    val.Is ((v : ℚ) / 16 ^ j) → (cs ≠ [] → place.Is (1 / 16 ^ (j + 1))) →
    v * 16 ^ cs.length + n < 2 ^ 53 → 4 * (j + cs.length) ≤ 1074 →
    ∃ r, hexFraction val place cs = some r ∧
      r.Is (((v * 16 ^ cs.length + n : ℕ) : ℚ) / 16 ^ (j + cs.length))
  | [], n, v, j, val, place, h, hv, _, _, _ => by
      cases h
      exact ⟨val, rfl, by simpa using hv⟩
  | c :: cs, n, v, j, val, place, h, hv, hp, hb, hl => by
      obtain ⟨d, n', hd, hn', rfl⟩ := digit_cons h
      have hd16 : d < 16 := hd.1
      rw [List.length_cons] at hb hl
      have hle : v * 16 + d < 2 ^ 53 := by
        have h1 : (v * 16 + d) * 16 ^ cs.length < 2 ^ 53 := by
          have e : (v * 16 + d) * 16 ^ cs.length = v * 16 ^ (cs.length + 1) + d * 16 ^ cs.length := by
            rw [Nat.pow_succ]; ring
          omega
        have h2 : 1 ≤ 16 ^ cs.length := Nat.one_le_pow _ _ (by omega)
        exact lt_of_le_of_lt (Nat.le_mul_of_pos_right _ h2) h1
      have hplace := hp (by simp)
      have hdig : (roundRat d 1).Is d := roundNat_is (by omega)
      have hprod := (hdig.mul hplace)
      have e1 : (d : ℚ) * (1 / 16 ^ (j + 1)) = (d : ℚ) / 16 ^ (j + 1) := by ring
      rw [e1] at hprod
      have hprod := hprod.exact (isDouble_frac16 (by omega) (by omega))
      have hsum := hv.add hprod
      have e2 : (v : ℚ) / 16 ^ j + (d : ℚ) / 16 ^ (j + 1) = ((v * 16 + d : ℕ) : ℚ) / 16 ^ (j + 1) := by
        push_cast
        rw [pow_succ]
        field_simp
      rw [e2] at hsum
      have hsum := hsum.exact (isDouble_frac16 hle (by omega))
      have hplace' : cs ≠ [] → place.div16.Is (1 / 16 ^ (j + 1 + 1)) := by
        intro hne
        have := hplace.div16
        have e3 : (1 : ℚ) / 16 ^ (j + 1) / 16 = ((1 : ℕ) : ℚ) / 16 ^ (j + 1 + 1) := by
          push_cast
          rw [pow_succ 16 (j + 1)]
          field_simp
        rw [e3] at this
        have hpos : 0 < cs.length := List.length_pos_iff.mpr hne
        have := this.exact (isDouble_frac16 (by omega) (by omega))
        simpa using this
      have e4 : (v * 16 + d) * 16 ^ cs.length + n' =
          v * 16 ^ (cs.length + 1) + (d * 16 ^ cs.length + n') := by
        rw [Nat.pow_succ]; ring
      obtain ⟨r, hr, hi⟩ := hexFraction_is (v := v * 16 + d) (j := j + 1) hn' hsum hplace'
        (by rw [e4]; exact hb) (by omega)
      refine ⟨r, ?_, ?_⟩
      · simp only [hexFraction]
        rw [(digitVal_iff (by omega)).mpr hd]
        exact hr
      · rw [e4] at hi
        have : j + 1 + cs.length = j + (cs.length + 1) := by omega
        rw [this] at hi
        exact hi

theorem hexFraction_some : ∀ {cs : List Char} {n : ℕ} {val place : Mag}, Digits 16 cs n →
    ∃ r, hexFraction val place cs = some r
  | [], _, val, _, _ => ⟨val, rfl⟩
  | c :: cs, n, val, place, h => by
      obtain ⟨d, n', hd, hn', _⟩ := digit_cons h
      simp only [hexFraction]
      rw [(digitVal_iff (by omega)).mpr hd]
      exact hexFraction_some hn'

theorem sixteenth_is : (roundRat 1 16).Is (1 / 16 ^ (0 + 1)) := by
  have := roundRat_exact 1 (q := 16) (by norm_num) (by
    have := isDouble_frac16 (n := 1) (k := 1) (by norm_num) (by norm_num)
    simpa using this)
  simpa using this

theorem no_point {a : List Char} {i : ℕ} (h : Digits 16 a i) : ∀ c ∈ a, (c == '.') = false := by
  intro c hc
  obtain ⟨d, hd⟩ := digits_mem h hc
  simpa using digit_ne (x := '.') (by omega) hd (by decide)

/-- The mantissa, by its parts. -/
theorem hexMantissa_eq {a p b : List Char} {i f : ℕ} (hp : Point p b) (hne : a ++ b ≠ [])
    (ha : Digits 16 a i) (hb : Digits 16 b f) :
    (¬ i < 2 ^ 64 → hexMantissa (a ++ p ++ b) = none) ∧
    (i < 2 ^ 64 → ∃ r, hexMantissa (a ++ p ++ b) = some r ∧
      ((p = [] ∧ r = roundRat i 1) ∨
        (∃ g, hexFraction (.fin 0 (-1074)) (roundRat 1 16) b = some g ∧ r = (roundRat i 1).add g))) := by
  have hz : a = [] → i = 0 := by rintro rfl; cases ha; rfl
  rcases hp with rfl | ⟨rfl, rfl⟩
  · have hs : splitOnce (· == '.') (a ++ ['.'] ++ b) = some (a, b) := by
      rw [List.append_assoc]
      exact splitOnce_some (no_point ha) (by decide)
    obtain ⟨g, hg⟩ := hexFraction_some (val := .fin 0 (-1074)) (place := roundRat 1 16) hb
    unfold hexMantissa
    rw [hs]
    simp only
    by_cases hnil : a = []
    · subst hnil
      have := hz rfl
      subst this
      refine ⟨fun h => absurd (by norm_num) h, fun _ => ⟨_, by rw [hg]; rfl, .inr ⟨g, hg, ?_⟩⟩⟩
      rfl
    · have : a.isEmpty = false := by simpa using hnil
      rw [this, u64FromHex_eq hnil ha]
      constructor
      · intro h; rw [if_neg h]; rfl
      · intro h; rw [if_pos h, hg]; exact ⟨_, rfl, .inr ⟨g, rfl, rfl⟩⟩
  · simp only [List.append_nil] at hne ⊢
    unfold hexMantissa
    rw [splitOnce_none (no_point ha)]
    simp only
    rw [u64FromHex_eq hne ha]
    constructor
    · intro h; rw [if_neg h]; rfl
    · intro h; rw [if_pos h]; exact ⟨_, rfl, .inl ⟨trivial, rfl⟩⟩

theorem no_p {a : List Char} {i : ℕ} (h : Digits 16 a i) :
    ∀ c ∈ a, (c == 'p' || c == 'P') = false := by
  intro c hc
  obtain ⟨d, hd⟩ := digits_mem h hc
  have h1 : c ≠ 'p' := digit_ne (by omega) hd (by decide)
  have h2 : c ≠ 'P' := digit_ne (by omega) hd (by decide)
  simp [h1, h2]

section
variable [PowTables]

/-- Hexadecimal literals are rejected exactly if the digits before the point are too many or the
exponent is too large. -/
theorem parseHexFloat_eq {a p b e : List Char} {i f : ℕ} {x : ℤ} (hp : Point p b)
    (hne : a ++ b ≠ []) (ha : Digits 16 a i) (hb : Digits 16 b f) (he : e ≠ [])
    (hx : ExponentIs ['p', 'P'] e x) :
    (¬ (i < 2 ^ 64 ∧ -(2 ^ 31) ≤ x ∧ x < 2 ^ 31) → parseHexFloat (a ++ p ++ b ++ e) = none) ∧
    (i < 2 ^ 64 ∧ -(2 ^ 31) ≤ x ∧ x < 2 ^ 31 → ∃ r, hexMantissa (a ++ p ++ b) = some r ∧
      parseHexFloat (a ++ p ++ b ++ e) = some (r.mul (PowTables.pow2 x))) := by
  obtain ⟨l, es, rfl, hl, _, hi⟩ := exponent_i32 hx he
  have hs : splitOnce (fun c => c == 'p' || c == 'P') (a ++ p ++ b ++ l :: es) =
      some (a ++ p ++ b, es) := by
    refine splitOnce_some (fun c hc => ?_) (by
      simp only [List.mem_cons, List.not_mem_nil, or_false] at hl
      rcases hl with rfl | rfl <;> rfl)
    rcases List.mem_append.mp hc with hc | hc
    · rcases List.mem_append.mp hc with hc | hc
      · exact no_p ha c hc
      · rcases hp with rfl | ⟨rfl, _⟩
        · simp only [List.mem_cons, List.not_mem_nil, or_false] at hc
          subst hc; decide
        · cases hc
    · exact no_p hb c hc
  have hm := hexMantissa_eq hp hne ha hb
  unfold parseHexFloat
  rw [hs]
  simp only
  rw [hi]
  constructor
  · intro h
    by_cases hx : -(2 ^ 31) ≤ x ∧ x < 2 ^ 31
    · rw [if_pos hx]
      simp only
      rw [hm.1 fun hi => h ⟨hi, hx⟩]
    · rw [if_neg hx]
  · intro h
    rw [if_pos h.2]
    obtain ⟨r, hr, _⟩ := hm.2 h.1
    exact ⟨r, hr, by simp only [hr]⟩

omit [PowTables] in
/-- The mantissa is exact if it has at most 53 bits. -/
theorem hexMantissa_is {a p b : List Char} {i n : ℕ} (hp : Point p b) (hne : a ++ b ≠ [])
    (ha : Digits 16 a i) (hn : Digits 16 (a ++ b) n) (h53 : n < 2 ^ 53)
    (hl : 4 * b.length ≤ 1074) {r : Mag} (hr : hexMantissa (a ++ p ++ b) = some r) :
    r.Is ((n : ℚ) / 16 ^ b.length) := by
  obtain ⟨i', f, ha', hb, rfl⟩ := digits_append hn
  have := digits_unique (by omega) ha ha'
  subst this
  have h16 : 1 ≤ 16 ^ b.length := Nat.one_le_pow _ _ (by omega)
  have hi : i ≤ i * 16 ^ b.length := Nat.le_mul_of_pos_right _ h16
  have hi53 : i < 2 ^ 53 := by omega
  obtain ⟨r', hr', hc⟩ := (hexMantissa_eq hp hne ha hb).2 (by omega)
  rw [hr] at hr'
  injection hr' with hr'
  subst hr'
  rcases hc with ⟨rfl, rfl⟩ | ⟨g, hg, rfl⟩
  · have hb' : b = [] := by
      rcases hp with h | ⟨_, h⟩
      · cases h
      · exact h
    subst hb'
    cases hb
    simpa using roundNat_is hi53
  · obtain ⟨g', hg', hgi⟩ := hexFraction_is (v := 0) (j := 0) hb (by simpa using zero_is)
      (fun _ => sixteenth_is) (by omega) (by omega)
    rw [hg] at hg'
    injection hg' with hg'
    subst hg'
    have := (roundNat_is hi53).add hgi
    have e : (i : ℚ) + ((0 * 16 ^ b.length + f : ℕ) : ℚ) / 16 ^ (0 + b.length) =
        ((i * 16 ^ b.length + f : ℕ) : ℚ) / 16 ^ b.length := by
      push_cast
      rw [zero_add]
      field_simp
      ring
    rw [e] at this
    exact this.exact (isDouble_frac16 h53 hl)

omit [PowTables] in
/-- Without digits after the point the mantissa is the rounded integer. -/
theorem hexMantissa_int {a p : List Char} {i : ℕ} (hp : Point p []) (hne : a ≠ [])
    (ha : Digits 16 a i) (hi : i < 2 ^ 64) :
    hexMantissa (a ++ p) = some (roundRat i 1) := by
  obtain ⟨r, hr, hc⟩ := (hexMantissa_eq hp (by simpa using hne) ha .nil).2 hi
  rw [List.append_nil] at hr
  rw [hr]
  rcases hc with ⟨_, rfl⟩ | ⟨g, hg, rfl⟩
  · rfl
  · simp only [hexFraction, Option.some.injEq] at hg
    subst hg
    obtain ⟨v, hd, _⟩ := roundNat_some hi
    have := hd.add zero_is
    rw [add_zero] at this
    exact congrArg some ((this.exact hd.isDouble).unique hd)

end

/-! ## Decimal literals -/

theorem dec_isDigit {c : Char} {d : ℕ} (h : IsDigit 10 c d) : c.isDigit = true := by
  have := isDigit_cases (by omega) h
  have hd := h.1
  have hc : c.toNat = 48 + d := by omega
  unfold Char.isDigit
  have h1 : c.val.toNat = 48 + d := hc
  simp only [Bool.and_eq_true, decide_eq_true_eq, ge_iff_le]
  constructor
  · rw [UInt32.le_iff_toNat_le, h1]; simp
  · rw [UInt32.le_iff_toNat_le, h1]; simp; omega

theorem spanDigits_eq {a rest : List Char} {n : ℕ} (ha : Digits 10 a n)
    (hr : ∀ c ∈ rest.head?, c.isDigit = false) : spanDigits (a ++ rest) = (a, rest) := by
  have h1 : ∀ c ∈ a, c.isDigit = true := fun c hc => by
    obtain ⟨d, hd⟩ := digits_mem ha hc
    exact dec_isDigit hd
  unfold spanDigits
  rw [List.takeWhile_append_of_pos h1, List.dropWhile_append_of_pos h1]
  cases rest with
  | nil => simp
  | cons c cs => simp [hr c (by simp)]

theorem exponent_decimal {e : List Char} {x : ℤ} (h : ExponentIs ['e', 'E'] e x) :
    decimalExponent e = some x ∧ ∀ c ∈ e.head?, c.isDigit = false ∧ c ≠ '.' := by
  have hletter : ∀ {l : Char}, l ∈ ['e', 'E'] →
      (l == 'e' || l == 'E') = true ∧ l.isDigit = false ∧ l ≠ '.' := by
    intro l hl
    simp only [List.mem_cons, List.not_mem_nil, or_false] at hl
    rcases hl with rfl | rfl <;> decide
  cases h with
  | none => exact ⟨rfl, by simp⟩
  | @plus l sign ds n hl hs hd h =>
    refine ⟨?_, by simpa using (hletter hl).2⟩
    simp only [List.cons_append, decimalExponent, (hletter hl).1, if_true]
    simp only [List.mem_cons, List.not_mem_nil, or_false] at hs
    rcases hs with rfl | rfl
    · cases ds with
      | nil => exact absurd rfl hd
      | cons c cs =>
        obtain ⟨d, _, h0, _⟩ := digit_cons h
        have h1 : c ≠ '-' := digit_ne (by omega) h0 (by decide)
        have h2 : c ≠ '+' := digit_ne (by omega) h0 (by decide)
        simp only [List.nil_append]
        split
        · rename_i h; injection h with h; exact absurd h h1
        · rename_i h; injection h with h; exact absurd h h2
        · rw [parseDigits_of (by omega) hd h]; rfl
    · simp only [List.cons_append, List.nil_append, parseDigits_of (r := 10) (by omega) hd h]; rfl
  | @minus l ds n hl hd h =>
    refine ⟨?_, by simpa using (hletter hl).2⟩
    simp only [decimalExponent, (hletter hl).1, if_true, parseDigits_of (r := 10) (by omega) hd h]
    rfl

theorem decimalMag_eq {a p b e : List Char} {n : ℕ} {x : ℤ} (hp : Point p b) (hne : a ++ b ≠ [])
    (hn : Digits 10 (a ++ b) n) (hx : ExponentIs ['e', 'E'] e x) :
    decimalMag (a ++ p ++ b ++ e) = some (scaleDecimal n (x - b.length)) := by
  obtain ⟨hx1, hx2⟩ := exponent_decimal hx
  obtain ⟨i, f, ha, hb, _⟩ := digits_append hn
  have hpd := parseDigits_of (r := 10) (by omega) hne hn
  have hemp : (a.isEmpty && b.isEmpty) = false := by
    cases a <;> cases b <;> simp_all
  unfold decimalMag
  rcases hp with rfl | ⟨rfl, rfl⟩
  · have h1 : spanDigits (a ++ ['.'] ++ b ++ e) = (a, '.' :: (b ++ e)) := by
      have := spanDigits_eq (rest := '.' :: (b ++ e)) ha (by simp)
      simpa using this
    rw [h1]
    simp only [spanFraction]
    rw [spanDigits_eq hb fun c hc => (hx2 c hc).1]
    simp only [hemp]
    rw [hx1, hpd]
    rfl
  · have h1 : spanDigits (a ++ [] ++ [] ++ e) = (a, e) := by
      simpa using spanDigits_eq ha fun c hc => (hx2 c hc).1
    rw [h1]
    simp only
    have h2 : spanFraction e = ([], e) := by
      unfold spanFraction
      split
      · exact absurd rfl (hx2 '.' (by simp)).2
      · rfl
    rw [h2]
    simp only [hemp]
    rw [hx1, hpd]
    rfl

theorem scaleDecimal_rounds (n : ℕ) (x : ℤ) :
    Rounds ((n : ℚ) * 10 ^ x) (scaleDecimal n x) := by
  unfold scaleDecimal
  have := roundRat_rounds (n * 10 ^ x.toNat) (q := 10 ^ (-x).toNat) (Nat.pos_of_ne_zero (by simp))
  have e : ((n * 10 ^ x.toNat : ℕ) : ℚ) / ((10 ^ (-x).toNat : ℕ) : ℚ) = (n : ℚ) * 10 ^ x := by
    push_cast
    rw [mul_div_assoc]
    congr 1
    rcases le_total 0 x with h | h
    · obtain ⟨k, rfl⟩ := Int.eq_ofNat_of_zero_le h
      simp
    · obtain ⟨k, hk⟩ := Int.eq_ofNat_of_zero_le (a := -x) (by omega)
      have : x = -(k : ℤ) := by omega
      subst this
      simp
  rw [e] at this
  exact this

end Avdl

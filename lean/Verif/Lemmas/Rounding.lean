import Verif.Floats
import Verif.Spec.Floats
import Mathlib.Tactic.Linarith
import Mathlib.Tactic.Positivity
import Mathlib.Tactic.FieldSimp
import Mathlib.Tactic.Ring
import Mathlib.Tactic.NormNum
/-!
# Rounding to doubles

The arithmetic of Verif/Floats.lean rounds to the nearest double.
-/

namespace Avdl
open Spec.Floats

/-- Rounding to 53 bits without a greatest exponent, in units of the last place. -/
structure IsRound (x : ℚ) (m : ℕ) (e : ℤ) : Prop where
  least : -1074 ≤ e
  lt : m < 2 ^ 53
  full : 2 ^ 52 ≤ m ∨ e = -1074
  near : |x / 2 ^ e - m| ≤ 1 / 2
  even : |x / 2 ^ e - m| = 1 / 2 → m % 2 = 0
  low : e ≠ -1074 → 2 ^ 52 - 1 / 4 ≤ x / 2 ^ e

theorem two_zpow_pos (e : ℤ) : (0 : ℚ) < 2 ^ e := zpow_pos (by norm_num) e

theorem zpow_split (e : ℤ) : (2 : ℚ) ^ e = 2 ^ e.toNat / 2 ^ (-e).toNat := by
  rcases le_total 0 e with h | h
  · obtain ⟨n, rfl⟩ := Int.eq_ofNat_of_zero_le h
    simp
  · obtain ⟨n, hn⟩ := Int.eq_ofNat_of_zero_le (a := -e) (by omega)
    have : e = -(n : ℤ) := by omega
    subst this
    simp

/-! ## Nearest integers -/

theorem roundHalfEven_near {num den : ℕ} (hd : 0 < den) :
    |(num : ℚ) / den - roundHalfEven num den| ≤ 1 / 2 ∧
    (|(num : ℚ) / den - roundHalfEven num den| = 1 / 2 → roundHalfEven num den % 2 = 0) := by
  have hq : (0 : ℚ) < den := by exact_mod_cast hd
  have key : (num : ℚ) / den = (num / den : ℕ) + ((num % den : ℕ) : ℚ) / den := by
    have : ((num / den : ℕ) : ℚ) * den + ((num % den : ℕ) : ℚ) = num := by
      exact_mod_cast Nat.div_add_mod' num den
    field_simp
    linarith
  have hr : num % den < den := Nat.mod_lt _ hd
  have hr' : ((num % den : ℕ) : ℚ) < den := by exact_mod_cast hr
  have hr0 : (0 : ℚ) ≤ ((num % den : ℕ) : ℚ) := by positivity
  rw [key]
  unfold roundHalfEven
  simp only
  generalize num / den = m
  generalize num % den = r at *
  split
  · rename_i h
    have e1 : (m : ℚ) + (r : ℚ) / den - ((m + 1 : ℕ) : ℚ) = -(1 - (r : ℚ) / den) := by
      push_cast; ring
    have h2 : (r : ℚ) / den < 1 := by rw [div_lt_one hq]; exact hr'
    rw [e1, abs_neg, abs_of_nonneg (by linarith)]
    rcases h with h | ⟨h, h'⟩
    · have : (1 : ℚ) / 2 < (r : ℚ) / den := by
        rw [lt_div_iff₀ hq]
        have : (den : ℚ) < 2 * r := by exact_mod_cast h
        linarith
      exact ⟨by linarith, fun e => by linarith⟩
    · have : (r : ℚ) / den = 1 / 2 := by
        rw [div_eq_iff hq.ne']
        have : (2 : ℚ) * r = den := by exact_mod_cast h
        linarith
      exact ⟨by linarith, fun _ => by omega⟩
  · rename_i h
    have e1 : (m : ℚ) + (r : ℚ) / den - m = (r : ℚ) / den := by ring
    rw [e1, abs_of_nonneg (by positivity)]
    have h1 : 2 * r ≤ den := by omega
    have h2 : (2 : ℚ) * r ≤ den := by exact_mod_cast h1
    refine ⟨by rw [div_le_iff₀ hq]; linarith, fun e => ?_⟩
    rw [div_eq_iff hq.ne'] at e
    have h3 : (2 : ℚ) * r = den := by linarith
    have h4 : 2 * r = den := by exact_mod_cast h3
    omega

theorem near_unique {y : ℚ} {m m' : ℕ} (h : |y - m| ≤ 1 / 2) (h' : |y - m'| ≤ 1 / 2)
    (he : |y - m| = 1 / 2 → m % 2 = 0) (he' : |y - m'| = 1 / 2 → m' % 2 = 0) : m = m' := by
  rw [abs_le] at h h'
  have h1 : (m : ℚ) ≤ m' + 1 := by linarith
  have h2 : (m' : ℚ) ≤ m + 1 := by linarith
  have h1 : m ≤ m' + 1 := by exact_mod_cast h1
  have h2 : m' ≤ m + 1 := by exact_mod_cast h2
  by_contra hne
  have : m = m' + 1 ∨ m' = m + 1 := by omega
  rcases this with rfl | rfl
  · push_cast at h he
    have : y = m' + 1 / 2 := by linarith
    subst this
    have a := he (by norm_num [abs_of_nonneg, abs_of_neg])
    have b := he' (by norm_num [abs_of_nonneg])
    omega
  · push_cast at h' he'
    have : y = m + 1 / 2 := by linarith
    subst this
    have a := he' (by norm_num [abs_of_nonneg, abs_of_neg])
    have b := he (by norm_num [abs_of_nonneg])
    omega

/-! ## Rounding -/

theorem floorLog_spec {p q : ℕ} (hp : 0 < p) (hq : 0 < q) :
    (2 : ℚ) ^ floorLog p q ≤ (p : ℚ) / q ∧ (p : ℚ) / q < 2 ^ (floorLog p q + 1) := by
  have hq' : (0 : ℚ) < q := by exact_mod_cast hq
  have a1 : 2 ^ p.log2 ≤ p := Nat.log2_self_le hp.ne'
  have a2 : p < 2 ^ (p.log2 + 1) := Nat.lt_log2_self
  have b1 : 2 ^ q.log2 ≤ q := Nat.log2_self_le hq.ne'
  have b2 : q < 2 ^ (q.log2 + 1) := Nat.lt_log2_self
  have a1 : (2 : ℚ) ^ p.log2 ≤ p := by exact_mod_cast a1
  have a2 : (p : ℚ) < 2 ^ (p.log2 + 1) := by exact_mod_cast a2
  have b1 : (2 : ℚ) ^ q.log2 ≤ q := by exact_mod_cast b1
  have b2 : (q : ℚ) < 2 ^ (q.log2 + 1) := by exact_mod_cast b2
  unfold floorLog
  simp only
  generalize hk : (p.log2 : ℤ) - (q.log2 : ℤ) = k
  have hpl : (2 : ℚ) ^ p.log2 = 2 ^ k * 2 ^ q.log2 := by
    rw [← zpow_natCast, ← zpow_natCast, ← zpow_add₀ (by norm_num)]
    congr 1; omega
  rw [pow_succ] at a2 b2
  have hkp := two_zpow_pos k
  have hs : (p * 2 ^ (-k).toNat < q * 2 ^ k.toNat) ↔ (p : ℚ) < q * 2 ^ k := by
    rw [zpow_split k, mul_div_assoc', lt_div_iff₀ (by positivity)]
    exact_mod_cast Iff.rfl
  split
  · rename_i h
    rw [hs] at h
    refine ⟨?_, ?_⟩
    · rw [le_div_iff₀ hq', zpow_sub₀ (by norm_num), zpow_one]
      have : (2 : ℚ) ^ k * q ≤ 2 ^ k * (2 ^ q.log2 * 2) :=
        mul_le_mul_of_nonneg_left b2.le hkp.le
      linarith
    · rw [div_lt_iff₀ hq', sub_add_cancel]
      linarith
  · rename_i h
    rw [hs, not_lt] at h
    refine ⟨?_, ?_⟩
    · rw [le_div_iff₀ hq']; linarith
    · rw [div_lt_iff₀ hq', zpow_add₀ (by norm_num), zpow_one]
      have : (2 : ℚ) ^ k * 2 ^ q.log2 ≤ 2 ^ k * q :=
        mul_le_mul_of_nonneg_left b1 hkp.le
      linarith

theorem significand_near (p : ℕ) {q : ℕ} (hq : 0 < q) (e : ℤ) :
    |(p : ℚ) / q / 2 ^ e - significand p q e| ≤ 1 / 2 ∧
    (|(p : ℚ) / q / 2 ^ e - significand p q e| = 1 / 2 → significand p q e % 2 = 0) := by
  have h := roundHalfEven_near (num := p * 2 ^ (-e).toNat) (den := q * 2 ^ e.toNat)
    (Nat.mul_pos hq (Nat.two_pow_pos _))
  have : ((p * 2 ^ (-e).toNat : ℕ) : ℚ) / ((q * 2 ^ e.toNat : ℕ) : ℚ) = (p : ℚ) / q / 2 ^ e := by
    rw [zpow_split e]
    push_cast
    have hq' : (q : ℚ) ≠ 0 := by exact_mod_cast hq.ne'
    field_simp
  rw [this] at h
  exact h

/-- The result of rounding, without a greatest exponent. -/
theorem roundRat_isRound (p : ℕ) {q : ℕ} (hq : 0 < q) : ∃ m e, IsRound ((p : ℚ) / q) m e ∧
    roundRat p q = if 971 < e then .inf else .fin m e := by
  by_cases hp : p = 0
  · subst hp
    refine ⟨0, -1074, ⟨le_refl _, by norm_num, .inr rfl, by norm_num, by norm_num, by simp⟩, ?_⟩
    simp [roundRat]
  have hx := floorLog_spec (Nat.pos_of_ne_zero hp) hq
  have hn := significand_near p hq (lastPlace p q)
  unfold roundRat
  rw [if_neg hp]
  simp only
  generalize hm : significand p q (lastPlace p q) = m at hn
  generalize he : lastPlace p q = e at hn
  generalize (p : ℚ) / q = x at hx hn
  unfold lastPlace at he
  have hep := two_zpow_pos e
  have hlt : x / 2 ^ e < 2 ^ 53 := by
    rw [div_lt_iff₀ hep]
    refine lt_of_lt_of_le hx.2 ?_
    rw [← zpow_natCast, ← zpow_add₀ (by norm_num)]
    exact zpow_le_zpow_right₀ (by norm_num) (by push_cast; omega)
  have hge : e ≠ -1074 → 2 ^ 52 ≤ x / 2 ^ e := by
    intro hne
    rw [le_div_iff₀ hep]
    refine le_trans ?_ hx.1
    rw [← zpow_natCast, ← zpow_add₀ (by norm_num)]
    exact zpow_le_zpow_right₀ (by norm_num) (by push_cast; omega)
  have hn1 := abs_le.mp hn.1
  have hm53 : m ≤ 2 ^ 53 := by
    have : (m : ℚ) < 2 ^ 53 + 1 := by linarith
    have : m < 2 ^ 53 + 1 := by exact_mod_cast this
    omega
  have hm52 : e ≠ -1074 → 2 ^ 52 ≤ m := by
    intro hne
    have := hge hne
    have : (2 ^ 52 : ℚ) < m + 1 := by linarith
    have : 2 ^ 52 < m + 1 := by exact_mod_cast this
    omega
  split
  · rename_i h53
    refine ⟨2 ^ 52, e + 1, ?_, rfl⟩
    have h1 : x / 2 ^ (e + 1) = x / 2 ^ e / 2 := by
      rw [zpow_add₀ (by norm_num), zpow_one, div_div]
    subst h53
    push_cast at hn1
    refine ⟨by omega, by norm_num, .inl (le_refl _), ?_, fun _ => by norm_num, fun _ => ?_⟩
    · rw [h1, abs_le]; push_cast
      constructor <;> linarith
    · rw [h1]; linarith
  · refine ⟨m, e, ⟨by omega, by omega, ?_, hn.1, hn.2, fun h => ?_⟩, rfl⟩
    · by_cases h : e = -1074
      · exact .inr h
      · exact .inl (hm52 h)
    · linarith [hge h]

theorem IsRound.unique {x : ℚ} {m m' : ℕ} {e e' : ℤ} (h : IsRound x m e) (h' : IsRound x m' e') :
    m = m' ∧ e = e' := by
  have key : ∀ {m m' : ℕ} {e e' : ℤ}, IsRound x m e → IsRound x m' e' → ¬ e < e' := by
    intro m m' e e' h h' hlt
    have hne : e' ≠ -1074 := by have := h.least; omega
    have h1 := h'.low hne
    have h2 := abs_le.mp h.near
    have h3 : x / 2 ^ e = x / 2 ^ e' * 2 ^ (e' - e) := by
      rw [zpow_sub₀ (by norm_num)]
      have := two_zpow_pos e
      have := two_zpow_pos e'
      field_simp
    have h4 : (2 : ℚ) ^ (1 : ℤ) ≤ 2 ^ (e' - e) := zpow_le_zpow_right₀ (by norm_num) (by omega)
    rw [zpow_one] at h4
    have h5 : (2 ^ 52 - 1 / 4 : ℚ) * 2 ≤ x / 2 ^ e' * 2 ^ (e' - e) :=
      mul_le_mul h1 h4 (by norm_num) (by linarith)
    rw [← h3] at h5
    have h6 : m ≤ 2 ^ 53 - 1 := by have := h.lt; omega
    have h7 : (m : ℚ) ≤ 2 ^ 53 - 1 := by
      have : m + 1 ≤ 2 ^ 53 := by omega
      have : (m : ℚ) + 1 ≤ 2 ^ 53 := by exact_mod_cast this
      linarith
    have h8 : x / 2 ^ e = 2 ^ 53 - 1 / 2 := by linarith
    have h9 : (m : ℚ) = 2 ^ 53 - 1 := by linarith
    have h10 : (m : ℚ) + 1 = 2 ^ 53 := by linarith
    have h11 : m + 1 = 2 ^ 53 := by exact_mod_cast h10
    have := h.even (by rw [h8, h9]; norm_num [abs_of_nonneg])
    omega
  have he : e = e' := by
    rcases lt_trichotomy e e' with hl | he | hl
    · exact absurd hl (key h h')
    · exact he
    · exact absurd hl (key h' h)
  subst he
  exact ⟨near_unique h.near h'.near h.even h'.even, rfl⟩

theorem roundRat_of_isRound {p q m : ℕ} {e : ℤ} (hq : 0 < q) (h : IsRound ((p : ℚ) / q) m e) :
    roundRat p q = if 971 < e then .inf else .fin m e := by
  obtain ⟨m', e', h', hr⟩ := roundRat_isRound p hq
  obtain ⟨rfl, rfl⟩ := h.unique h'
  exact hr

/-! ## Doubles -/

theorem dyadic_nonneg (m : ℕ) (e : ℤ) : 0 ≤ dyadic m e :=
  mul_nonneg (Nat.cast_nonneg m) (two_zpow_pos e).le

/-- A double is a multiple of a given last place or below all doubles with that one. -/
theorem double_cases {z : ℚ} (hz : IsDouble z) (e : ℤ) :
    (∃ k : ℕ, z = k * 2 ^ e) ∨ (e ≠ -1074 ∧ z ≤ (2 ^ 52 - 1 / 2) * 2 ^ e) := by
  obtain ⟨m, e', hm, h1, _, rfl⟩ := hz
  rcases le_or_gt e e' with h | h
  · left
    refine ⟨m * 2 ^ (e' - e).toNat, ?_⟩
    unfold dyadic
    push_cast
    rw [mul_assoc, ← zpow_natCast (2 : ℚ) (e' - e).toNat, ← zpow_add₀ (by norm_num)]
    congr 2; omega
  · right
    refine ⟨by omega, ?_⟩
    unfold dyadic
    have hm' : (m : ℚ) + 1 ≤ 2 ^ 53 := by exact_mod_cast hm
    calc (m : ℚ) * 2 ^ e' ≤ (2 ^ 53 - 1) * 2 ^ e' :=
          mul_le_mul_of_nonneg_right (by linarith) (two_zpow_pos _).le
      _ = (2 ^ 52 - 1 / 2) * 2 ^ (e' + 1) := by rw [zpow_add₀ (by norm_num), zpow_one]; ring
      _ ≤ (2 ^ 52 - 1 / 2) * 2 ^ e := by
        apply mul_le_mul_of_nonneg_left _ (by norm_num)
        exact zpow_le_zpow_right₀ (by norm_num) (by omega)

/-- The nearest integer is no farther away than any other, and if another is as near then half a
unit away. -/
theorem near_le {y : ℚ} {m : ℕ} (h : |y - m| ≤ 1 / 2) (k : ℕ) :
    |y - m| ≤ |y - k| ∧ (|y - m| = |y - k| → k ≠ m → |y - m| = 1 / 2) := by
  by_cases hk : k = m
  · subst hk; exact ⟨le_refl _, fun _ h => absurd rfl h⟩
  · have hge : 1 / 2 ≤ |y - k| := by
      have h1 : (1 : ℚ) ≤ |(m : ℚ) - k| := by
        rcases Nat.lt_or_gt_of_ne hk with h' | h'
        · have : (k : ℚ) + 1 ≤ m := by exact_mod_cast h'
          rw [abs_of_nonneg (by linarith)]; linarith
        · have : (m : ℚ) + 1 ≤ k := by exact_mod_cast h'
          rw [abs_of_nonpos (by linarith)]; linarith
      have h2 : |(m : ℚ) - k| ≤ |(m : ℚ) - y| + |y - k| := abs_sub_le _ _ _
      rw [abs_sub_comm (m : ℚ) y] at h2
      linarith
    exact ⟨h.trans hge, fun e _ => le_antisymm h (e ▸ hge)⟩

theorem abs_scale (x : ℚ) (k : ℚ) (e : ℤ) : |x - k * 2 ^ e| = |x / 2 ^ e - k| * 2 ^ e := by
  have h := two_zpow_pos e
  have : x - k * 2 ^ e = (x / 2 ^ e - k) * 2 ^ e := by field_simp
  rw [this, abs_mul, abs_of_pos h]

theorem isRound_range {x : ℚ} {m : ℕ} {e : ℤ} (h : IsRound x m e) :
    971 < e ↔ tooLarge ≤ x := by
  have hep := two_zpow_pos e
  unfold tooLarge
  have hx : x = x / 2 ^ e * 2 ^ e := by field_simp
  have a3 : (2 : ℚ) ^ (971 : ℤ) = 2 ^ 970 * 2 := by
    rw [zpow_ofNat, ← pow_succ]
  have a4 : (2 : ℚ) ^ (972 : ℤ) = 2 ^ 970 * 2 ^ 2 := by
    rw [zpow_ofNat, ← pow_add]
  have a5 : (2 : ℚ) ^ 1024 = 2 ^ 970 * 2 ^ 54 := by
    rw [← pow_add]
  have a6 : (0 : ℚ) < 2 ^ 970 := by positivity
  rw [a5]
  constructor
  · intro he
    have h1 := h.low (by omega)
    have h2 : (2 : ℚ) ^ (972 : ℤ) ≤ 2 ^ e := zpow_le_zpow_right₀ (by norm_num) (by omega)
    rw [hx]
    rw [a4] at h2
    generalize (2 : ℚ) ^ 970 = T at *
    have := mul_le_mul h1 h2 (by positivity) (by linarith)
    linarith
  · intro hle
    by_contra hlt
    have hn := abs_le.mp h.near
    have h7 : (m : ℚ) ≤ 2 ^ 53 - 1 := by
      have : m + 1 ≤ 2 ^ 53 := h.lt
      have : (m : ℚ) + 1 ≤ 2 ^ 53 := by exact_mod_cast this
      linarith
    have h2 : (2 : ℚ) ^ e ≤ 2 ^ (971 : ℤ) := zpow_le_zpow_right₀ (by norm_num) (by omega)
    have hy : x / 2 ^ e ≤ 2 ^ 53 - 1 / 2 := by linarith
    have hy0 : x / 2 ^ e < 2 ^ 53 - 1 / 2 := by
      refine lt_of_le_of_ne hy fun heq => ?_
      have h9 : (m : ℚ) = 2 ^ 53 - 1 := by linarith
      have h10 : (m : ℚ) + 1 = 2 ^ 53 := by linarith
      have h11 : m + 1 = 2 ^ 53 := by exact_mod_cast h10
      have := h.even (by rw [heq, h9]; norm_num [abs_of_nonneg])
      omega
    have h3 : x < (2 ^ 53 - 1 / 2) * 2 ^ (971 : ℤ) := by
      rw [hx]
      calc x / 2 ^ e * 2 ^ e < (2 ^ 53 - 1 / 2) * 2 ^ e := mul_lt_mul_of_pos_right hy0 hep
        _ ≤ _ := mul_le_mul_of_nonneg_left h2 (by norm_num)
    rw [a3] at h3
    generalize (2 : ℚ) ^ 970 = T at *
    linarith

/-- Rounding gives the nearest double. -/
theorem IsRound.nearest {x : ℚ} {m : ℕ} {e : ℤ} (h : IsRound x m e) (he : e ≤ 971) :
    NearestDouble x m e := by
  have hep := two_zpow_pos e
  have hd : dyadic m e = (m : ℚ) * 2 ^ e := rfl
  have multiple := fun k : ℕ => near_le h.near k
  have below : ∀ z, e ≠ -1074 → z ≤ (2 ^ 52 - 1 / 2) * 2 ^ e →
      |x - dyadic m e| ≤ |x - z| ∧ (|x - dyadic m e| = |x - z| → m % 2 = 0) := by
    intro z hne hz
    have hlow := h.low hne
    have hn := abs_le.mp h.near
    have hz' : z / 2 ^ e ≤ 2 ^ 52 - 1 / 2 := by rw [div_le_iff₀ hep]; exact hz
    have hzx : |x - z| = |x / 2 ^ e - z / 2 ^ e| * 2 ^ e := by
      rw [← abs_scale]
      congr 1
      field_simp
    rw [hd, abs_scale, hzx]
    generalize z / 2 ^ e = w at hz' ⊢
    generalize hy' : x / 2 ^ e = y at *
    have hw : 1 / 4 ≤ |y - w| := by
      rw [abs_of_nonneg (by linarith)]; linarith
    have key : |y - m| ≤ |y - w| ∧ (|y - m| = |y - w| → m % 2 = 0) := by
      by_cases hy : 2 ^ 52 ≤ y
      · have h1 := (multiple (2 ^ 52)).1
        push_cast at h1
        have h2 : |y - 2 ^ 52| < |y - w| := by
          rw [abs_of_nonneg (by linarith), abs_of_nonneg (by linarith)]
          linarith
        exact ⟨(lt_of_le_of_lt h1 h2).le, fun e => absurd e (lt_of_le_of_lt h1 h2).ne⟩
      · have h1 : (m : ℚ) < 2 ^ 52 + 1 := by linarith
        have h1 : m < 2 ^ 52 + 1 := by exact_mod_cast h1
        have h2 : m = 2 ^ 52 := by
          rcases h.full with h' | h'
          · omega
          · exact absurd h' hne
        subst h2
        refine ⟨?_, fun _ => by norm_num⟩
        push_cast
        rw [abs_of_nonpos (by linarith)]
        linarith
    refine ⟨mul_le_mul_of_nonneg_right key.1 hep.le, fun heq => key.2 (mul_right_cancel₀ hep.ne' heq)⟩
  refine ⟨?_, ⟨h.lt, h.least, he, h.full⟩, fun z hz => ?_, fun z hz hne heq => ?_⟩
  · have := isRound_range h
    by_contra hc
    have := this.mpr (not_lt.mp hc)
    omega
  · rcases double_cases hz e with ⟨k, rfl⟩ | ⟨hne, hz⟩
    · rw [hd, abs_scale, abs_scale]
      exact mul_le_mul_of_nonneg_right (multiple k).1 hep.le
    · exact (below z hne hz).1
  · rcases double_cases hz e with ⟨k, rfl⟩ | ⟨hne', hz⟩
    · rw [hd, abs_scale, abs_scale] at heq
      have heq := mul_right_cancel₀ hep.ne' heq
      refine h.even ((multiple k).2 heq fun hk => hne ?_)
      rw [hk, hd]
    · exact (below z hne' hz).2 heq

end Avdl

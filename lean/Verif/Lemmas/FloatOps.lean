import Verif.Lemmas.Rounding
/-!
# Operations on doubles

When the exact result of an operation is a double, it is the result.
-/

namespace Avdl
open Spec.Floats

/-- The double is the number `x`. -/
def Mag.Is (a : Mag) (x : ℚ) : Prop := ∃ m e, a = .fin m e ∧ Stored m e ∧ dyadic m e = x

theorem isDouble_dyadic {m : ℕ} {e : ℤ} (hm : m < 2 ^ 53) (h1 : -1074 ≤ e) (h2 : e ≤ 971) :
    IsDouble (dyadic m e) := ⟨m, e, hm, h1, h2, rfl⟩

theorem Mag.Is.isDouble {a : Mag} {x : ℚ} (h : a.Is x) : IsDouble x := by
  obtain ⟨m, e, _, hs, rfl⟩ := h
  exact isDouble_dyadic hs.1 hs.2.1 hs.2.2.1

theorem Spec.Floats.IsDouble.lt_tooLarge {x : ℚ} (h : IsDouble x) : x < tooLarge := by
  obtain ⟨m, e, hm, _, he, rfl⟩ := h
  have h1 : (m : ℚ) + 1 ≤ 2 ^ 53 := by exact_mod_cast hm
  have h2 : (2 : ℚ) ^ e ≤ 2 ^ (971 : ℤ) := zpow_le_zpow_right₀ (by norm_num) he
  have a3 : (2 : ℚ) ^ (971 : ℤ) = 2 ^ 970 * 2 := by
    rw [zpow_ofNat, ← pow_succ]
  have a5 : (2 : ℚ) ^ 1024 = 2 ^ 970 * 2 ^ 54 := by
    rw [← pow_add]
  have a6 : (0 : ℚ) < 2 ^ 970 := by positivity
  unfold dyadic tooLarge
  rw [a3] at h2
  rw [a5]
  clear a3 a5
  generalize (2 : ℚ) ^ 970 = T at *
  have := mul_le_mul (show (m : ℚ) ≤ 2 ^ 53 - 1 by linarith) h2 (two_zpow_pos e).le (by norm_num)
  linarith

/-- The result of rounding `x`. -/
inductive Rounds (x : ℚ) : Mag → Prop
  | fin {m e} : NearestDouble x m e → Rounds x (.fin m e)
  | inf : tooLarge ≤ x → Rounds x .inf

theorem IsRound.rounds {x : ℚ} {m : ℕ} {e : ℤ} (h : IsRound x m e) :
    Rounds x (if 971 < e then .inf else .fin m e) := by
  split
  · rename_i he; exact .inf ((isRound_range h).mp he)
  · rename_i he; exact .fin (h.nearest (by omega))

theorem roundRat_rounds (p : ℕ) {q : ℕ} (hq : 0 < q) : Rounds ((p : ℚ) / q) (roundRat p q) := by
  obtain ⟨m, e, h, hr⟩ := roundRat_isRound p hq
  rw [hr]; exact h.rounds

theorem Rounds.exact {x : ℚ} {a : Mag} (h : Rounds x a) (hx : IsDouble x) : a.Is x := by
  cases h with
  | fin h =>
    refine ⟨_, _, rfl, h.stored, ?_⟩
    have := h.nearest x hx
    rw [sub_self, abs_zero] at this
    have := abs_eq_zero.mp (le_antisymm this (abs_nonneg _))
    linarith
  | inf h => exact absurd (Spec.Floats.IsDouble.lt_tooLarge hx) (not_lt.mpr h)

theorem roundRat_exact (p : ℕ) {q : ℕ} (hq : 0 < q) (h : IsDouble ((p : ℚ) / q)) :
    (roundRat p q).Is ((p : ℚ) / q) := (roundRat_rounds p hq).exact h

theorem dyadic_frac (m : ℕ) (e : ℤ) :
    ((m * 2 ^ e.toNat : ℕ) : ℚ) / ((2 ^ (-e).toNat : ℕ) : ℚ) = dyadic m e := by
  unfold dyadic
  rw [zpow_split e]
  push_cast
  rw [mul_div_assoc]

theorem roundDyadic_rounds (m : ℕ) (e : ℤ) : Rounds (dyadic m e) (roundDyadic m e) := by
  have := roundRat_rounds (m * 2 ^ e.toNat) (q := 2 ^ (-e).toNat) (Nat.two_pow_pos _)
  rw [dyadic_frac] at this
  exact this

theorem roundDyadic_of_isRound {m m' : ℕ} {e e' : ℤ} (h : IsRound (dyadic m e) m' e') :
    roundDyadic m e = if 971 < e' then .inf else .fin m' e' := by
  unfold roundDyadic
  apply roundRat_of_isRound (Nat.two_pow_pos _)
  rw [dyadic_frac]; exact h

theorem dyadic_mul (m m' : ℕ) (e e' : ℤ) :
    dyadic (m * m') (e + e') = dyadic m e * dyadic m' e' := by
  unfold dyadic
  rw [zpow_add₀ (by norm_num)]
  push_cast
  ring

theorem dyadic_add (m m' : ℕ) (e e' : ℤ) :
    dyadic (m * 2 ^ (e - min e e').toNat + m' * 2 ^ (e' - min e e').toNat) (min e e') =
      dyadic m e + dyadic m' e' := by
  unfold dyadic
  push_cast
  rw [← zpow_natCast, ← zpow_natCast, add_mul, mul_assoc, mul_assoc, ← zpow_add₀ (by norm_num),
    ← zpow_add₀ (by norm_num)]
  congr 3 <;> omega

theorem Mag.Is.mul {a b : Mag} {x y : ℚ} (ha : a.Is x) (hb : b.Is y) :
    Rounds (x * y) (a.mul b) := by
  obtain ⟨m, e, rfl, _, rfl⟩ := ha
  obtain ⟨m', e', rfl, _, rfl⟩ := hb
  rw [← dyadic_mul]
  exact roundDyadic_rounds _ _

theorem Mag.Is.add {a b : Mag} {x y : ℚ} (ha : a.Is x) (hb : b.Is y) :
    Rounds (x + y) (a.add b) := by
  obtain ⟨m, e, rfl, _, rfl⟩ := ha
  obtain ⟨m', e', rfl, _, rfl⟩ := hb
  rw [← dyadic_add]
  exact roundDyadic_rounds _ _

theorem Mag.Is.div16 {a : Mag} {x : ℚ} (ha : a.Is x) : Rounds (x / 16) a.div16 := by
  obtain ⟨m, e, rfl, _, rfl⟩ := ha
  have : dyadic m e / 16 = dyadic m (e - 4) := by
    unfold dyadic
    rw [zpow_sub₀ (by norm_num)]
    norm_num
    ring
  rw [this]
  exact roundDyadic_rounds _ _

theorem zero_is : (Mag.fin 0 (-1074)).Is 0 :=
  ⟨0, -1074, rfl, ⟨by norm_num, by norm_num, by norm_num, .inr rfl⟩, by simp [dyadic]⟩

/-- A double is stored in one way. -/
theorem Mag.Is.unique {a b : Mag} {x : ℚ} (ha : a.Is x) (hb : b.Is x) : a = b := by
  have key : ∀ {m e}, Stored m e → IsRound (dyadic m e) m e := by
    intro m e h
    have hy : dyadic m e / 2 ^ e = m := by
      have := two_zpow_pos e
      unfold dyadic; field_simp
    refine ⟨h.2.1, h.1, h.2.2.2, by rw [hy]; norm_num, by rw [hy]; norm_num, fun hne => ?_⟩
    rw [hy]
    rcases h.2.2.2 with h' | h'
    · have : (2 ^ 52 : ℚ) ≤ m := by exact_mod_cast h'
      linarith
    · exact absurd h' hne
  obtain ⟨m, e, rfl, hs, rfl⟩ := ha
  obtain ⟨m', e', rfl, hs', he⟩ := hb
  have h1 := key hs
  have h2 := key hs'
  rw [he] at h2
  obtain ⟨rfl, rfl⟩ := h1.unique h2
  rfl

theorem dyadic_pow (x : ℤ) : dyadic (2 ^ 52) (x - 52) = 2 ^ x := by
  unfold dyadic
  rw [Nat.cast_pow, Nat.cast_ofNat, ← zpow_natCast, ← zpow_add₀ (by norm_num)]
  congr 1
  push_cast; omega

theorem pow2_is [PowTables] {x : ℤ} (h1 : -1022 ≤ x) (h2 : x ≤ 1023) :
    (PowTables.pow2 x).Is (2 ^ x) := by
  rw [PowTables.exact x h1 h2]
  exact ⟨_, _, rfl, ⟨by norm_num, by omega, by omega, .inl (le_refl _)⟩, dyadic_pow x⟩

/-- Rounding an integer to 53 bits and then scaling it by a power of two is rounding once. -/
theorem scaled_rounds [PowTables] {n : ℕ} (hn : n < 2 ^ 64) {x : ℤ} (h1 : -1022 ≤ x)
    (h2 : x ≤ 1023) : Rounds (n * 2 ^ x) ((roundRat n 1).mul (PowTables.pow2 x)) := by
  by_cases h0 : n = 0
  · subst h0
    have : roundRat 0 1 = .fin 0 (-1074) := rfl
    rw [this]
    have := zero_is.mul (pow2_is h1 h2)
    simpa using this
  obtain ⟨m, e, h, hr⟩ := roundRat_isRound n (q := 1) one_pos
  simp only [Nat.cast_one, div_one] at h
  have hn1 : (1 : ℚ) ≤ n := by exact_mod_cast Nat.pos_of_ne_zero h0
  have hn2 : (n : ℚ) < 2 ^ 64 := by exact_mod_cast hn
  have hb := abs_le.mp h.near
  have hep := two_zpow_pos e
  have he1 : -52 ≤ e := by
    by_contra hc
    have : (2 : ℚ) ^ e ≤ 2 ^ (-53 : ℤ) := zpow_le_zpow_right₀ (by norm_num) (by omega)
    have h3 : (2 ^ 53 : ℚ) ≤ n / 2 ^ e := by
      rw [le_div_iff₀ hep]
      have : (2 : ℚ) ^ 53 * 2 ^ e ≤ 2 ^ 53 * 2 ^ (-53 : ℤ) :=
        mul_le_mul_of_nonneg_left this (by norm_num)
      have h4 : (2 : ℚ) ^ 53 * 2 ^ (-53 : ℤ) = 1 := by norm_num
      linarith
    have h5 : (m : ℚ) + 1 ≤ 2 ^ 53 := by exact_mod_cast h.lt
    linarith
  have he2 : ¬ 971 < e := by
    rw [isRound_range h, not_le]
    refine lt_trans hn2 ?_
    unfold tooLarge
    have a5 : (2 : ℚ) ^ 1024 = 2 ^ 970 * 2 ^ 54 := by rw [← pow_add]
    have a6 : (2 : ℚ) ^ 64 ≤ 2 ^ 970 := pow_le_pow_right₀ (by norm_num) (by norm_num)
    rw [a5]
    clear a5
    generalize (2 : ℚ) ^ 970 = T at *
    linarith
  have hm : 2 ^ 52 ≤ m := h.full.resolve_right (by omega)
  rw [hr, if_neg he2]
  have hs : IsRound ((n : ℚ) * 2 ^ x) m (e + x) := by
    have hy : (n : ℚ) * 2 ^ x / 2 ^ (e + x) = n / 2 ^ e := by
      rw [zpow_add₀ (by norm_num)]
      have := two_zpow_pos x
      field_simp
    exact ⟨by omega, h.lt, .inl hm, by rw [hy]; exact h.near, by rw [hy]; exact h.even,
      fun _ => by rw [hy]; exact h.low (by omega)⟩
  have hd : IsRound (dyadic m (e + x)) m (e + x) := by
    have hy : dyadic m (e + x) / 2 ^ (e + x) = m := by
      have := two_zpow_pos (e + x)
      unfold dyadic; field_simp
    refine ⟨by omega, h.lt, .inl hm, by rw [hy]; norm_num, by rw [hy]; norm_num, fun _ => ?_⟩
    rw [hy]
    have : (2 ^ 52 : ℚ) ≤ m := by exact_mod_cast hm
    linarith
  have hmul : (Mag.fin m e).mul (PowTables.pow2 x) =
      if 971 < e + x then .inf else .fin m (e + x) := by
    rw [PowTables.exact x h1 h2]
    apply roundDyadic_of_isRound
    rw [dyadic_mul, dyadic_pow]
    have : dyadic m e * 2 ^ x = dyadic m (e + x) := by
      unfold dyadic; rw [zpow_add₀ (by norm_num)]; ring
    rw [this]; exact hd
  rw [hmul]
  exact hs.rounds

/-! ## Nearest doubles are unique -/

theorem stored_unique {m m' : ℕ} {e e' : ℤ} (h : Stored m e) (h' : Stored m' e')
    (he : dyadic m e = dyadic m' e') : m = m' ∧ e = e' := by
  have h1 : (Mag.fin m e).Is (dyadic m e) := ⟨m, e, rfl, h, rfl⟩
  have h2 : (Mag.fin m' e').Is (dyadic m e) := ⟨m', e', rfl, h', he.symm⟩
  have := h1.unique h2
  injection this with h3 h4
  exact ⟨h3, h4⟩

theorem nearest_isRound {x : ℚ} {m m₀ : ℕ} {e e₀ : ℤ} (h : NearestDouble x m e)
    (h₀ : IsRound x m₀ e₀) (hr : e₀ ≤ 971) : m = m₀ ∧ e = e₀ := by
  have hn := h₀.nearest hr
  have hd : IsDouble (dyadic m e) := isDouble_dyadic h.stored.1 h.stored.2.1 h.stored.2.2.1
  have hd₀ : IsDouble (dyadic m₀ e₀) :=
    isDouble_dyadic hn.stored.1 hn.stored.2.1 hn.stored.2.2.1
  by_cases hne : dyadic m e = dyadic m₀ e₀
  · exact stored_unique h.stored hn.stored hne
  exfalso
  have heq : |x - dyadic m₀ e₀| = |x - dyadic m e| :=
    le_antisymm (hn.nearest _ hd) (h.nearest _ hd₀)
  have hev₀ := hn.even _ hd hne heq
  have hev := h.even _ hd₀ (Ne.symm hne) heq.symm
  have hep := two_zpow_pos e₀
  have hd₀' : dyadic m₀ e₀ = (m₀ : ℚ) * 2 ^ e₀ := rfl
  rcases double_cases hd e₀ with ⟨k, hk⟩ | ⟨hne', hle⟩
  · rw [hk, hd₀', abs_scale, abs_scale] at heq
    have heq := mul_right_cancel₀ hep.ne' heq
    have hkm : k ≠ m₀ := by rintro rfl; exact hne (hk.trans hd₀'.symm)
    have hhalf := (near_le h₀.near k).2 heq hkm
    have hlow := h₀.low
    have hlt := h₀.lt
    have hfull := h₀.full
    generalize x / 2 ^ e₀ = y at *
    have hk1 : k = m₀ + 1 ∨ (k + 1 = m₀ ∧ y = m₀ - 1 / 2) := by
      rcases abs_cases (y - m₀) with ⟨h1, _⟩ | ⟨h1, _⟩ <;>
        rcases abs_cases (y - k) with ⟨h2, _⟩ | ⟨h2, _⟩ <;> rw [h1] at hhalf heq <;> rw [h2] at heq
      · exact absurd (by exact_mod_cast (by linarith : (k : ℚ) = m₀)) hkm
      · left
        exact_mod_cast (by linarith : (k : ℚ) = m₀ + 1)
      · right
        exact ⟨by exact_mod_cast (by linarith : (k : ℚ) + 1 = m₀), by linarith⟩
      · exact absurd (by exact_mod_cast (by linarith : (k : ℚ) = m₀)) hkm
    have hst : Stored k e₀ := by
      rcases hk1 with rfl | ⟨hk1, hy⟩
      · refine ⟨by omega, hn.stored.2.1, hr, ?_⟩
        rcases hfull with h | h
        · exact .inl (by omega)
        · exact .inr h
      · refine ⟨by omega, hn.stored.2.1, hr, ?_⟩
        by_cases he : e₀ = -1074
        · exact .inr he
        · left
          have := hlow he
          have h1 : (2 ^ 52 : ℚ) < m₀ := by linarith
          have h1 : 2 ^ 52 < m₀ := by exact_mod_cast h1
          omega
    have := stored_unique h.stored hst hk
    omega
  · have hz' : dyadic m e / 2 ^ e₀ ≤ 2 ^ 52 - 1 / 2 := by rw [div_le_iff₀ hep]; exact hle
    have hzx : |x - dyadic m e| = |x / 2 ^ e₀ - dyadic m e / 2 ^ e₀| * 2 ^ e₀ := by
      rw [← abs_scale]
      congr 1
      field_simp
    have hz : dyadic m e = dyadic m e / 2 ^ e₀ * 2 ^ e₀ := by field_simp
    rw [hzx, hd₀', abs_scale] at heq
    have heq := mul_right_cancel₀ hep.ne' heq
    have hlow := h₀.low hne'
    have hlt := h₀.lt
    have hm52 := h₀.full.resolve_right hne'
    have hm52 : (2 ^ 52 : ℚ) ≤ m₀ := by exact_mod_cast hm52
    have h1 := (near_le h₀.near (2 ^ 52)).1
    push_cast at h1
    generalize hw : dyadic m e / 2 ^ e₀ = w at *
    generalize x / 2 ^ e₀ = y at *
    rw [abs_of_nonneg (show 0 ≤ y - w by linarith)] at heq
    rw [heq] at h1
    have hwe : w = 2 ^ 52 - 1 / 2 := by
      rcases abs_cases (y - 4503599627370496) with ⟨h2, _⟩ | ⟨h2, _⟩ <;> rw [h2] at h1 <;> linarith
    have hst : Stored (2 ^ 53 - 1) (e₀ - 1) :=
      ⟨by norm_num, by have := h₀.least; omega, by omega, .inl (by norm_num)⟩
    have hv : dyadic (2 ^ 53 - 1) (e₀ - 1) = dyadic m e := by
      rw [hz, hwe]
      unfold dyadic
      rw [zpow_sub₀ (by norm_num), zpow_one]
      norm_num
      ring
    have := stored_unique h.stored hst hv.symm
    omega

end Avdl

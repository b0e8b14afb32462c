import Verif.Proofs.Float
import Verif.Proofs.Helper
import Verif.Model.FloatExperiments

/-! # Quotients of `double`s by whole numbers -/

namespace Verif

variable {rnd : ℚ → ℚ}

/-- A quotient of a `double` by a whole number does not round up to a whole number. -/
theorem Nearest.div_lt (hr : Nearest rnd) {x : ℚ} (hx : IsDouble x) (h0 : 1 ≤ x) (d k : Nat) (hd : 1 ≤ d)
    (hd' : d ≤ 2 ^ 20) (hk : d * k ≤ 2 ^ 53) (h : x < d * k) : rnd (x / d) < k := by
  have hdq : (0 : ℚ) < d := by exact_mod_cast hd
  have hkq : (d : ℚ) * k ≤ 2 ^ 53 := by exact_mod_cast hk
  have hy0 : (1 : ℚ) / 2 ^ 20 ≤ x / d := by
    rw [div_le_div_iff₀ (by positivity) hdq]
    have : (d : ℚ) ≤ 2 ^ 20 := by exact_mod_cast hd'
    have : (2 : ℚ) ^ 20 ≤ x * 2 ^ 20 := le_mul_of_one_le_left (by positivity) h0
    linarith
  have hy1 : x / d ≤ 2 ^ 53 := by
    rw [div_le_iff₀ hdq]
    have : (2 : ℚ) ^ 53 * 1 ≤ 2 ^ 53 * d := mul_le_mul_of_nonneg_left (by exact_mod_cast hd) (by positivity)
    linarith
  have hrel := hr.rel (q := x / d)
    (le_trans (one_div_le_one_div_of_le (by positivity) (pow_le_pow_right₀ (by norm_num) (by norm_num))) hy0)
    (hy1.trans (pow_le_pow_right₀ (by norm_num) (by norm_num)))
  -- the distance of `x` to `d * k` is at least the last place of `x`
  have key : ∃ u : ℚ, 0 < u ∧ x < 2 ^ 53 * u ∧ u ≤ d * k - x := by
    obtain ⟨M, e, h1, h2, h3, rfl⟩ := hx
    have hM : M ≤ 2 ^ 53 := (le_abs_self M).trans h1
    have step : ∀ (M e : ℤ), M < 2 ^ 53 → e ≤ 0 → (M : ℚ) * 2 ^ e < d * k →
        ∃ u : ℚ, 0 < u ∧ (M : ℚ) * 2 ^ e < 2 ^ 53 * u ∧ u ≤ d * k - M * 2 ^ e := by
      intro M e hM he hlt
      have hu : (0 : ℚ) < 2 ^ e := zpow_pos (by norm_num) _
      refine ⟨2 ^ e, hu, ?_, ?_⟩
      · exact mul_lt_mul_of_pos_right (by exact_mod_cast hM) hu
      · obtain ⟨n, hn⟩ := Int.eq_ofNat_of_zero_le (by omega : 0 ≤ -e)
        have e1 : (2 : ℚ) ^ e * 2 ^ n = 1 := by
          rw [← zpow_natCast, ← hn, ← zpow_add₀ (by norm_num)]
          simp
        have hw : (d * k : ℚ) = ((d * k * 2 ^ n : ℤ) : ℚ) * 2 ^ e := by
          push_cast
          rw [mul_assoc _ _ ((2 : ℚ) ^ e), mul_comm _ ((2 : ℚ) ^ e), e1, mul_one]
        rw [hw] at hlt ⊢
        have h5 : M < (d * k * 2 ^ n : ℤ) := by
          have := lt_of_mul_lt_mul_right hlt hu.le
          exact_mod_cast this
        have h6 : (1 : ℚ) ≤ ((d * k * 2 ^ n : ℤ) : ℚ) - M := by
          have : (M : ℚ) + 1 ≤ ((d * k * 2 ^ n : ℤ) : ℚ) := by exact_mod_cast h5
          linarith
        rw [← sub_mul]
        exact le_mul_of_one_le_left hu.le h6
    by_cases he : e ≤ 0
    · by_cases hM' : M < 2 ^ 53
      · exact step M e hM' he h
      · have hMe : M = 2 ^ 53 := le_antisymm hM (not_lt.mp hM')
        subst hMe
        by_cases he' : e = 0
        · subst he'
          exfalso
          push_cast at h
          norm_num at h hkq
          linarith
        · have hv : ((2 ^ 53 : ℤ) : ℚ) * 2 ^ e = ((2 ^ 52 : ℤ) : ℚ) * 2 ^ (e + 1) := by
            rw [zpow_add_one₀ (by norm_num)]
            push_cast
            ring
          rw [hv] at h ⊢
          exact step (2 ^ 52) (e + 1) (by norm_num) (by omega) h
    · obtain ⟨n, hn⟩ := Int.eq_ofNat_of_zero_le (by omega : 0 ≤ e)
      subst hn
      refine ⟨1, one_pos, by linarith, ?_⟩
      rw [zpow_natCast] at h ⊢
      have : M * 2 ^ n < (d * k : ℤ) := by exact_mod_cast h
      have : ((M * 2 ^ n : ℤ) : ℚ) + 1 ≤ (d * k : ℤ) := by exact_mod_cast this
      push_cast at this
      linarith
  obtain ⟨u, hu, h1, h2⟩ := key
  have h3 : x / d * (1 / 2 ^ 53) < u / d := by
    rw [div_mul_div_comm, mul_one, div_lt_div_iff₀ (by positivity) hdq]
    nlinarith [mul_lt_mul_of_pos_right h1 hdq]
  have h4 : u / d ≤ k - x / d := by
    rw [div_le_iff₀ hdq, sub_mul, div_mul_cancel₀ _ hdq.ne']
    linarith
  have := (abs_le.mp hrel).2
  linarith

/-- Nor does it round down below one. -/
theorem Nearest.le_div (hr : Nearest rnd) {y : ℚ} (k : Nat) (hk : k ≤ 2 ^ 53) (h : (k : ℚ) ≤ y) (hy : y ≤ 2 ^ 1023) :
    (k : ℚ) ≤ rnd y := by
  have h0 : (0 : ℚ) ≤ y := (Nat.cast_nonneg k).trans h
  have h1 := hr.near y k ((abs_of_nonneg h0).le.trans hy) (isDouble_nat k hk)
  rw [abs_of_nonpos (sub_nonpos.mpr h)] at h1
  have h2 := (abs_le.mp h1).1
  linarith only [h2]

theorem isDouble_le {x : ℚ} (hx : IsDouble x) : x ≤ 2 ^ 1023 := by
  obtain ⟨M, e, h1, h2, h3, rfl⟩ := hx
  have hM : (M : ℚ) ≤ 2 ^ 53 := by exact_mod_cast (le_abs_self M).trans h1
  have hu : (0 : ℚ) < 2 ^ e := zpow_pos (by norm_num) _
  have he : (2 : ℚ) ^ e ≤ 2 ^ (970 : ℤ) := zpow_le_zpow_right₀ (by norm_num) h3
  calc (M : ℚ) * 2 ^ e ≤ 2 ^ 53 * 2 ^ e := mul_le_mul_of_nonneg_right hM hu.le
    _ ≤ 2 ^ 53 * 2 ^ (970 : ℤ) := mul_le_mul_of_nonneg_left he (by positivity)
    _ = 2 ^ 1023 := by
      rw [show (970 : ℤ) = ((970 : Nat) : ℤ) by norm_num, zpow_natCast, ← pow_add]

theorem toInt_round (hr : Nearest rnd) {x : ℚ} (hx : IsDouble x) (h0 : 1 ≤ x) (d : Nat) (hd : 1 ≤ d) (hd' : d ≤ 2 ^ 20) :
    toInt (rnd (x / d)) = toInt (x / d) := by
  have hdq : (0 : ℚ) < d := by exact_mod_cast hd
  have hxd : x / d ≤ 2 ^ 1023 := by
    refine le_trans ?_ (isDouble_le hx)
    rw [div_le_iff₀ hdq]
    exact le_mul_of_one_le_right (by linarith) (by exact_mod_cast hd)
  by_cases hbig : 2 ^ 31 ≤ x / d
  · have := hr.le_div (2 ^ 31) (by norm_num) (by exact_mod_cast hbig) hxd
    rw [toInt_big hbig, toInt_big (by exact_mod_cast this)]
  · have hlt := not_le.mp hbig
    obtain ⟨k, e1, e2, e3⟩ := toInt_nonneg (q := x / d) (by positivity) hlt
    have hk : k < 2 ^ 31 := by
      have : (k : ℚ) < 2 ^ 31 := lt_of_le_of_lt e2 hlt
      exact_mod_cast this
    have h1 := hr.le_div k (by omega) e2 hxd
    have h2 : rnd (x / d) < (k + 1 : Nat) := by
      refine hr.div_lt hx h0 d (k + 1) hd hd' ?_ ?_
      · calc d * (k + 1) ≤ 2 ^ 20 * 2 ^ 31 := Nat.mul_le_mul hd' (by omega)
          _ ≤ 2 ^ 53 := by norm_num
      · rw [div_lt_iff₀ hdq] at e3
        push_cast
        linarith
    have h3 : rnd (x / d) < 2 ^ 31 := by
      refine lt_of_lt_of_le h2 ?_
      have : k + 1 ≤ 2 ^ 31 := by omega
      exact_mod_cast this
    obtain ⟨k', e1', e2', e3'⟩ := toInt_nonneg (q := rnd (x / d)) ((Nat.cast_nonneg k).trans h1) h3
    have a1 : k < k' + 1 := by exact_mod_cast lt_of_le_of_lt h1 e3'
    have a2 : k' < k + 1 := by exact_mod_cast lt_of_le_of_lt e2' h2
    rw [e1, e1', show k' = k by omega]

end Verif

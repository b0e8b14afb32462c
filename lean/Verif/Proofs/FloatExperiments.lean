import Verif.Model.FloatExperiments
import Verif.Proofs.FloatOperators
import Verif.Proofs.Experiments
import Verif.Proofs.Helper

/-! # Lemmas on the minimisation experiments on `double`s -/

namespace Verif

variable {m : Mgr} {rnd dec cv : ℚ → ℚ}

/-! ## Reading back a `double` -/

/-- A number within a fifth of the distance to the next `double`s is rounded back. -/
theorem Nearest.back (h : Nearest rnd) {q q' : ℚ} (hq : IsDouble q) (h0 : 0 ≤ q) (hbig : q ≤ 2 ^ 1000)
    (hn : |q' - q| ≤ q * (2 / 10 ^ 17)) : rnd q' = q := by
  rcases h0.eq_or_lt with h0 | h0
  · rw [← h0] at hn ⊢
    rw [zero_mul, sub_zero] at hn
    rw [abs_eq_zero.mp (le_antisymm hn (abs_nonneg _))]
    exact h.exact isDouble_zero (by rw [abs_zero]; exact pow_nonneg (by norm_num) _)
  have hq' : |q'| ≤ 2 ^ 1023 := by
    have h1 : |q'| ≤ q + q * (2 / 10 ^ 17) := by
      have := abs_le.mp hn
      have h3 : 0 ≤ q * (2 / 10 ^ 17) := mul_nonneg h0.le (by norm_num)
      have h4 : q * (2 / 10 ^ 17) ≤ q * 1 := mul_le_mul_of_nonneg_left (by norm_num) h0.le
      exact abs_le.mpr ⟨by linarith only [this.1, h0, h4], by linarith only [this.2]⟩
    have h2 : q + q * (2 / 10 ^ 17) = q * (1 + 2 / 10 ^ 17) := by ring
    rw [h2] at h1
    calc |q'| ≤ q * (1 + 2 / 10 ^ 17) := h1
      _ ≤ 2 ^ 1000 * 2 := mul_le_mul hbig (by norm_num) (by norm_num) (pow_nonneg (by norm_num) _)
      _ = 2 ^ 1001 := (pow_succ _ _).symm
      _ ≤ 2 ^ 1023 := pow_le_big (by norm_num)
  have h1 := h.near q' q hq' hq
  set y := rnd q' with hy
  have hyd : IsDouble y := h.isDouble _ hq'
  have h2 : |y - q| ≤ q * (4 / 10 ^ 17) := by
    have e1 : |y - q| ≤ |y - q'| + |q' - q| := abs_sub_le _ _ _
    have e2 : |q - q'| = |q' - q| := abs_sub_comm _ _
    have e3 : q * (2 / 10 ^ 17) + q * (2 / 10 ^ 17) = q * (4 / 10 ^ 17) := by ring
    rw [e2] at h1
    linarith only [e1, e3, h1, hn]
  set t := Int.log 2 q with ht
  have l1 : (2 : ℚ) ^ t ≤ q := by
    have := Int.zpow_log_le_self (b := 2) (r := q) (by norm_num) h0
    exact_mod_cast this
  have l2 : q < (2 : ℚ) ^ (t + 1) := by
    have := Int.lt_zpow_succ_log_self (b := 2) (by norm_num) q
    exact_mod_cast this
  have ht0 : (0 : ℚ) < 2 ^ t := zpow_pos (by norm_num) _
  have e1 : (2 : ℚ) ^ (t - 1) = 2 ^ t * (1 / 2) := by rw [zpow_sub₀ (by norm_num), zpow_one]; ring
  have e2 : (2 : ℚ) ^ (t + 1) = 2 ^ t * 2 := by rw [zpow_add₀ (by norm_num), zpow_one]
  have e3 : (2 : ℚ) ^ (t - 1 - 52) = 2 ^ t * (1 / 2 ^ 53) := by
    rw [show t - 1 - 52 = t + (-53 : ℤ) by ring, zpow_add₀ (by norm_num)]
    norm_num
  have a2 := abs_le.mp h2
  have b1 : (2 : ℚ) ^ (t - 1) < q := by rw [e1]; linarith only [l1, ht0]
  have b2 : (2 : ℚ) ^ (t - 1) < y := by
    have : q * (1 / 2) < q * (1 - 4 / 10 ^ 17) := mul_lt_mul_of_pos_left (by norm_num) h0
    rw [e1]
    linarith only [a2.1, l1, this]
  obtain ⟨j, hj⟩ := hq.spacing b1
  obtain ⟨k, hk⟩ := hyd.spacing b2
  rw [e3] at hj hk
  by_contra hne
  have hkj : 1 ≤ |k - j| := Int.one_le_abs (fun hz => hne (by
    rw [hj, hk]
    have : k = j := by omega
    rw [this]))
  have hkj' : (1 : ℚ) ≤ |(k : ℚ) - j| := by exact_mod_cast hkj
  have hd : |y - q| = |(k : ℚ) - j| * (2 ^ t * (1 / 2 ^ 53)) := by
    nth_rewrite 1 [hj]
    rw [hk, ← sub_mul, abs_mul, abs_of_pos (mul_pos ht0 (by norm_num) : (0 : ℚ) < 2 ^ t * (1 / 2 ^ 53))]
  have hlow : 2 ^ t * (1 / 2 ^ 53) ≤ |y - q| := by
    rw [hd]
    exact le_mul_of_one_le_left (mul_pos ht0 (by norm_num)).le hkj'
  have hup : q * (4 / 10 ^ 17) < 2 ^ t * 2 * (4 / 10 ^ 17) := mul_lt_mul_of_pos_right (l2.trans_eq e2) (by norm_num)
  have hlt : (2 : ℚ) ^ t * 2 * (4 / 10 ^ 17) < 2 ^ t * (1 / 2 ^ 53) := by
    rw [mul_assoc]
    exact mul_lt_mul_of_pos_left (by norm_num) ht0
  linarith only [hlow, h2, hup, hlt]

/-- A value that a `cpp_dec_float_100` approximates is found again in the `double`. -/
theorem DecToDouble.back (h : Nearest rnd) (hc : DecToDouble rnd cv) {q v : ℚ} (hq : IsDouble q) (h0 : 0 ≤ q)
    (hbig : q ≤ 2 ^ 999) (hv : |v - q| ≤ 1 / 10 ^ 98 * q) : cv v = q := by
  have hv' := abs_le.mp hv
  have hvq : |v| ≤ q * (1 + 1 / 10 ^ 98) :=
    abs_le.mpr ⟨by
      have : q * (1 / 10 ^ 98) ≤ q * 1 := mul_le_mul_of_nonneg_left (by norm_num) h0
      linarith only [hv'.1, h0, this], by linarith only [hv'.2]⟩
  have hvb : |v| ≤ 2 ^ 1000 := by
    calc |v| ≤ q * (1 + 1 / 10 ^ 98) := hvq
      _ ≤ 2 ^ 999 * 2 := mul_le_mul hbig (by norm_num) (by norm_num) (pow_nonneg (by norm_num) _)
      _ = 2 ^ 1000 := (pow_succ _ _).symm
  obtain ⟨q', h1, h2⟩ := hc.conv v hvb
  rw [h2]
  refine h.back hq h0 (hbig.trans (pow_le_big (by norm_num))) ?_
  have e : |q' - q| ≤ |q' - v| + |v - q| := abs_sub_le _ _ _
  have e2 : |v| / 10 ^ 17 ≤ q * (1 + 1 / 10 ^ 98) / 10 ^ 17 := div_le_div_of_nonneg_right hvq (by norm_num)
  have e3 : q * (1 + 1 / 10 ^ 98) / 10 ^ 17 + 1 / 10 ^ 98 * q = q * ((1 + 1 / 10 ^ 98) / 10 ^ 17 + 1 / 10 ^ 98) := by ring
  have e4 : q * ((1 + 1 / 10 ^ 98) / 10 ^ 17 + 1 / 10 ^ 98) ≤ q * (2 / 10 ^ 17) :=
    mul_le_mul_of_nonneg_left (by norm_num) h0
  linarith only [e, e2, e3, e4, h1, hv]

/-! ## Cells -/

/-- A fraction that is no whole number keeps its distance from them. -/
theorem floor_near {x : ℚ} {a D : Nat} (hD : 0 < D) (hnd : ¬ D ∣ a) (ha : a < 2 ^ 50)
    (h1 : x ≤ (a : ℚ) / D * (1 + 1 / 2 ^ 50)) (h2 : (a : ℚ) / D * (1 - 1 / 2 ^ 50) ≤ x) :
    ⌊x⌋ = ((a / D : Nat) : ℤ) := by
  have hDq : (0 : ℚ) < D := by exact_mod_cast hD
  have hr : 0 < a % D := Nat.pos_of_ne_zero fun h => hnd (Nat.dvd_of_mod_eq_zero h)
  have hr' := Nat.mod_lt a hD
  have hdm : (a : ℚ) = D * ((a / D : Nat) : ℚ) + ((a % D : Nat) : ℚ) := by exact_mod_cast (Nat.div_add_mod a D).symm
  have haq : (a : ℚ) / 2 ^ 50 < 1 := by
    rw [div_lt_one (by norm_num)]
    exact_mod_cast ha
  have hrq : (1 : ℚ) ≤ ((a % D : Nat) : ℚ) := by exact_mod_cast hr
  have hrq' : ((a % D : Nat) : ℚ) + 1 ≤ D := by exact_mod_cast hr'
  rw [Int.floor_eq_iff]
  constructor
  · refine le_trans ?_ h2
    have e : (a : ℚ) / D * (1 - 1 / 2 ^ 50) = (a - a / 2 ^ 50) / D := by ring
    rw [e, le_div_iff₀ hDq]
    rw [Int.cast_natCast, mul_comm]
    linarith only [hdm, haq, hrq]
  · refine lt_of_le_of_lt h1 ?_
    have e : (a : ℚ) / D * (1 + 1 / 2 ^ 50) = (a + a / 2 ^ 50) / D := by ring
    rw [e, div_lt_iff₀ hDq]
    rw [Int.cast_natCast, mul_comm, mul_add]
    linarith only [hdm, haq, hrq']

theorem toSizeT_floor {x : ℚ} (h0 : 0 ≤ x) (h1 : x < 2 ^ 64) : toSizeT x = .ok ⌊x⌋.toNat := by
  unfold toSizeT
  rw [if_neg (not_or.mpr ⟨not_le.mpr (by linarith only [h0]), not_le.mpr h1⟩)]

/-- Two numbers close to the same fraction lie in the same cell, unless it is a whole number in the grid. -/
theorem sameCell_near {x y : ℚ} {G a D : Nat} (hD : 0 < D) (hG : G < 2 ^ 50) (hcase : (G + 1) * D ≤ a ∨ ¬ D ∣ a ∧ a < 2 ^ 50)
    (hbig : a / D < (2 : ℚ) ^ 63)
    (hx : x ≤ (a : ℚ) / D * (1 + 1 / 2 ^ 50)) (hx' : (a : ℚ) / D * (1 - 1 / 2 ^ 50) ≤ x)
    (hy : y ≤ (a : ℚ) / D * (1 + 1 / 2 ^ 50)) (hy' : (a : ℚ) / D * (1 - 1 / 2 ^ 50) ≤ y) :
    SameCell G (toSizeT x) (toSizeT y) := by
  have hDq : (0 : ℚ) < D := by exact_mod_cast hD
  have hr0 : (0 : ℚ) ≤ a / D := div_nonneg (Nat.cast_nonneg _) hDq.le
  have key : ∀ z : ℚ, z ≤ (a : ℚ) / D * (1 + 1 / 2 ^ 50) → (a : ℚ) / D * (1 - 1 / 2 ^ 50) ≤ z →
      toSizeT z = .ok ⌊z⌋.toNat ∧ ((G + 1) * D ≤ a → G ≤ ⌊z⌋.toNat) := by
    intro z h1 h2
    have hz0 : 0 ≤ z := le_trans (mul_nonneg hr0 (by norm_num)) h2
    refine ⟨toSizeT_floor hz0 ?_, fun h => ?_⟩
    · have : (a : ℚ) / D * (1 + 1 / 2 ^ 50) ≤ a / D * 2 := mul_le_mul_of_nonneg_left (by norm_num) hr0
      have h3 : (2 : ℚ) ^ 64 = 2 ^ 63 * 2 := by norm_num
      linarith only [this, h1, hbig, h3]
    · have h3 : ((G : ℚ) + 1) ≤ a / D := by
        rw [le_div_iff₀ hDq]
        exact_mod_cast h
      have hGq : (G : ℚ) + 1 ≤ 2 ^ 50 := by exact_mod_cast hG
      have h4 : ((G : ℚ) + 1) * (1 - 1 / 2 ^ 50) ≤ z := (mul_le_mul_of_nonneg_right h3 (by norm_num)).trans h2
      have h5 : (G : ℚ) ≤ z := by
        have : ((G : ℚ) + 1) / 2 ^ 50 ≤ 1 := by rw [div_le_one (by norm_num)]; exact hGq
        have e : ((G : ℚ) + 1) * (1 - 1 / 2 ^ 50) = G + 1 - (G + 1) / 2 ^ 50 := by ring
        linarith only [h4, this, e]
      have : (G : ℤ) ≤ ⌊z⌋ := Int.le_floor.mpr (by exact_mod_cast h5)
      omega
  obtain ⟨k1, k2⟩ := key x hx hx'
  obtain ⟨k3, k4⟩ := key y hy hy'
  rcases hcase with h | ⟨h, h'⟩
  · exact .inr ⟨_, _, k1, k3, k2 h, k4 h⟩
  · left
    rw [k1, k3, floor_near hD h h' hx hx', floor_near hD h h' hy hy']

/-- `k / (2 ^ N)` in the ranges that occur is a `double` that is neither too small nor too large. -/
theorem frac_low {j N : Nat} (hj : 0 < j) (hN : N ≤ 60) : (1 : ℚ) / 2 ^ 60 ≤ j / 2 ^ N := by
  have h1 : (1 : ℚ) / 2 ^ 60 ≤ 1 / 2 ^ N := one_div_le_one_div_of_le (by positivity) (pow_le_big hN)
  refine h1.trans (div_le_div_of_nonneg_right ?_ (by positivity))
  exact_mod_cast hj

theorem low_low (k : Nat) (hk : k ≤ 1022) : (1 : ℚ) / 2 ^ 1022 ≤ 1 / 2 ^ k :=
  one_div_le_one_div_of_le (pow_pos (by norm_num) _) (pow_le_big hk)

/-- The limit 0.05 with a grid of 10 or 20 cells. -/
theorem sameCell_005 (hr : Nearest rnd) {G N j : Nat} (hG : G = 10 ∨ G = 20) (hN : N ≤ 45) (hj : j ≤ 2 ^ N) :
    SameCell G (toSizeT (coordinateF rnd G ((j : ℚ) / 2 ^ N) double005))
      (toSizeT (G * ((j : ℚ) / 2 ^ N) / double005)) := by
  have hG0 : 0 < G := by omega
  rcases Nat.eq_zero_or_pos j with rfl | hj0
  · left
    have : rnd 0 = 0 := hr.exact isDouble_zero (by rw [abs_zero]; exact pow_nonneg (by norm_num) _)
    rw [Nat.cast_zero, zero_div, coordinateF, mul_zero, mul_zero, this, zero_div, this]
  have hGq : (1 : ℚ) ≤ G := by exact_mod_cast hG0
  have hGq' : (G : ℚ) ≤ 20 := by exact_mod_cast (show G ≤ 20 by omega)
  have hv0 := frac_low hj0 (show N ≤ 60 by omega)
  have hv1 : (j : ℚ) / 2 ^ N ≤ 1 := by
    rw [div_le_one (by positivity)]
    exact_mod_cast hj
  have hvpos : (0 : ℚ) < j / 2 ^ N := lt_of_lt_of_le (by norm_num) hv0
  have hb : (1 : ℚ) / 2 ^ 60 ≤ double005 := by norm_num [double005]
  have hbpos : (0 : ℚ) < double005 := by norm_num [double005]
  have hge : (1 : ℚ) / 2 ^ 60 ≤ G * (j / 2 ^ N) := hv0.trans (le_mul_of_one_le_left hvpos.le hGq)
  have hq : (1 : ℚ) / 2 ^ 60 ≤ G * (j / 2 ^ N) / double005 := by
    rw [le_div_iff₀ hbpos]
    refine le_trans ?_ hge
    exact mul_le_of_le_one_right (by norm_num) (by norm_num [double005])
  obtain ⟨r1, r2⟩ := coordinateF_normal hr (by omega) (by
      rw [abs_of_pos hvpos]
      exact hv1.trans (one_le_pow₀ (by norm_num))) hb ((low_low 60 (by norm_num)).trans hge)
    (((one_div_le_one_div_of_le (pow_pos (by norm_num) _) (pow_le_big (by norm_num))).trans hq : (1 : ℚ) / 2 ^ 1021 ≤ _))
  -- the exact coordinate against 20 G j / 2 ^ N
  have hexact : (G : ℚ) * (j / 2 ^ N) / double005 = ((20 * G * j : Nat) : ℚ) / ((2 ^ N : Nat) : ℚ) / (1 + 1 / 2 ^ 54) := by
    have hd : double005 = (1 + 1 / 2 ^ 54) / 20 := by norm_num [double005]
    rw [hd]
    push_cast
    rw [div_div_eq_mul_div, div_left_inj' (by norm_num)]
    ring
  set r : ℚ := ((20 * G * j : Nat) : ℚ) / ((2 ^ N : Nat) : ℚ) with hrdef
  set y := (G : ℚ) * (j / 2 ^ N) / double005 with hydef
  have hr0 : 0 ≤ r := div_nonneg (Nat.cast_nonneg _) (Nat.cast_nonneg _)
  have hy1 : y ≤ r := by rw [hexact]; exact div_le_self hr0 (by norm_num)
  have hy2 : r * (1 - 1 / 2 ^ 54) ≤ y := by
    rw [hexact, le_div_iff₀ (by norm_num), mul_assoc]
    exact mul_le_of_le_one_right hr0 (by norm_num)
  have hrmul : ∀ c d : ℚ, c ≤ d → r * c ≤ r * d := fun c d h => mul_le_mul_of_nonneg_left h hr0
  have hx1 : coordinateF rnd G (j / 2 ^ N) double005 ≤ r * (1 + 1 / 2 ^ 50) :=
    (r1.trans (mul_le_mul_of_nonneg_right hy1 (by norm_num))).trans (hrmul _ _ (by norm_num))
  have hx2 : r * (1 - 1 / 2 ^ 50) ≤ coordinateF rnd G (j / 2 ^ N) double005 := by
    have h3 := mul_le_mul_of_nonneg_right r2 (show (0 : ℚ) ≤ 1 / (1 + 1 / 2 ^ 51) by norm_num)
    rw [mul_assoc (coordinateF _ _ _ _), mul_one_div_cancel (by norm_num), mul_one] at h3
    have h4 := mul_le_mul_of_nonneg_right hy2 (show (0 : ℚ) ≤ 1 / (1 + 1 / 2 ^ 51) by norm_num)
    refine le_trans ?_ (h4.trans h3)
    rw [mul_assoc]
    exact hrmul _ _ (by norm_num)
  refine sameCell_near (Nat.two_pow_pos N) (by omega) ?_ ?_ hx1 hx2
    (hy1.trans (le_mul_of_one_le_right hr0 (by norm_num))) ((hrmul _ _ (by norm_num)).trans hy2)
  · by_cases hc : (G + 1) * 2 ^ N ≤ 20 * G * j
    · exact .inl hc
    · refine .inr ⟨fun hdvd => hc ?_, ?_⟩
      · have h25 : 25 ∣ 20 * G * j := by
          rcases hG with rfl | rfl
          · exact ⟨8 * j, by ring⟩
          · exact ⟨16 * j, by ring⟩
        have hco : Nat.Coprime (2 ^ N) 25 := Nat.Coprime.pow_left N (by decide)
        have hmul := Nat.le_of_dvd (by positivity) (hco.mul_dvd_of_dvd_of_dvd hdvd h25)
        calc (G + 1) * 2 ^ N ≤ 25 * 2 ^ N := Nat.mul_le_mul_right _ (by omega)
          _ = 2 ^ N * 25 := Nat.mul_comm _ _
          _ ≤ _ := hmul
      · have : (G + 1) * 2 ^ N ≤ 21 * 2 ^ 45 := Nat.mul_le_mul (by omega) (Nat.pow_le_pow_right (by norm_num) hN)
        omega
  · change r < 2 ^ 63
    have : r ≤ 20 * 20 * 1 := by
      have e : r = 20 * G * (j / 2 ^ N) := by rw [hrdef]; push_cast; ring
      rw [e]
      exact mul_le_mul (mul_le_mul_of_nonneg_left hGq' (by norm_num)) hv1 hvpos.le (by norm_num)
    exact lt_of_le_of_lt this (by norm_num)

/-- The limit 7 with a grid of 20 cells, for averages over 16 variables. -/
theorem sameCell_7 (hr : Nearest rnd) {j : Nat} (hj : j < 2 ^ 26) :
    SameCell 20 (toSizeT (coordinateF rnd 20 ((j : ℚ) / 2 ^ 16) 7)) (toSizeT ((20 : Nat) * ((j : ℚ) / 2 ^ 16) / 7)) := by
  have hjq : (j : ℚ) < 2 ^ 26 := by exact_mod_cast hj
  have hd1 : IsDouble (((20 : Nat) : ℚ) * ((j : ℚ) / 2 ^ 16)) := by
    have := isDouble_nat_div (20 * j) 16 (by omega) (by norm_num)
    push_cast at this
    rwa [mul_div_assoc] at this
  have hbig : ∀ q : ℚ, 0 ≤ q → q ≤ 2 ^ 40 → |q| ≤ 2 ^ 1023 := fun q h0 h1 =>
    (abs_of_nonneg h0).trans_le (h1.trans (pow_le_big (by norm_num)))
  have hj0q : (0 : ℚ) ≤ j := Nat.cast_nonneg _
  have hp0 : (0 : ℚ) ≤ ((20 : Nat) : ℚ) * ((j : ℚ) / 2 ^ 16) := by positivity
  have hp1 : ((20 : Nat) : ℚ) * ((j : ℚ) / 2 ^ 16) ≤ 2 ^ 40 := by
    push_cast
    linarith only [hjq]
  by_cases hdvd : 7 * 2 ^ 16 ∣ 20 * j
  · left
    obtain ⟨k, hk⟩ := hdvd
    have hkq : (20 : ℚ) * j = 7 * 2 ^ 16 * k := by exact_mod_cast hk
    have e : ((20 : Nat) : ℚ) * ((j : ℚ) / 2 ^ 16) / 7 = k := by
      push_cast
      linarith only [hkq]
    unfold coordinateF
    rw [hr.small 20 (by norm_num), hr.exact hd1 (hbig _ hp0 hp1), e, hr.small k (by omega)]
  · have hj0 : 0 < j := Nat.pos_of_ne_zero (by rintro rfl; simp at hdvd)
    have hv0 := frac_low hj0 (show 16 ≤ 60 by norm_num)
    have hvpos : (0 : ℚ) < j / 2 ^ 16 := lt_of_lt_of_le (by norm_num) hv0
    have hge : (1 : ℚ) / 2 ^ 60 ≤ ((20 : Nat) : ℚ) * (j / 2 ^ 16) :=
      hv0.trans (le_mul_of_one_le_left hvpos.le (by norm_num))
    have hq : (1 : ℚ) / 2 ^ 61 ≤ ((20 : Nat) : ℚ) * (j / 2 ^ 16) / 7 := by
      push_cast at hge ⊢
      linarith only [hv0]
    obtain ⟨r1, r2⟩ := coordinateF_normal hr (g := 20) (e := j / 2 ^ 16) (b := 7) (by norm_num) (by
        rw [abs_of_pos hvpos]
        refine le_trans ?_ (pow_le_big (show 40 ≤ 900 by norm_num))
        linarith only [hjq, hj0q]) (by norm_num) ((low_low 60 (by norm_num)).trans hge)
      ((one_div_le_one_div_of_le (pow_pos (by norm_num) _) (pow_le_big (by norm_num))).trans hq)
    have e : ((20 : Nat) : ℚ) * (j / 2 ^ 16) / 7 = ((20 * j : Nat) : ℚ) / ((7 * 2 ^ 16 : Nat) : ℚ) := by
      push_cast
      ring
    have hr0 : (0 : ℚ) ≤ ((20 * j : Nat) : ℚ) / ((7 * 2 ^ 16 : Nat) : ℚ) := by positivity
    rw [e] at r1 r2 ⊢
    set r : ℚ := ((20 * j : Nat) : ℚ) / ((7 * 2 ^ 16 : Nat) : ℚ) with hrdef
    have hrmul : ∀ c d : ℚ, c ≤ d → r * c ≤ r * d := fun c d h => mul_le_mul_of_nonneg_left h hr0
    refine sameCell_near (by norm_num) (by norm_num) (.inr ⟨hdvd, by omega⟩) ?_
      (r1.trans (hrmul _ _ (by norm_num))) ?_ (le_mul_of_one_le_right hr0 (by norm_num))
      (mul_le_of_le_one_right hr0 (by norm_num))
    · push_cast
      linarith only [hjq]
    · have h3 := mul_le_mul_of_nonneg_right r2 (show (0 : ℚ) ≤ 1 / (1 + 1 / 2 ^ 51) by norm_num)
      rw [mul_assoc (coordinateF _ _ _ _), mul_one_div_cancel (by norm_num), mul_one] at h3
      exact (hrmul _ _ (by norm_num)).trans h3

/-! ## Means of whole numbers -/

theorem mean_nat (N : Nat) (g : Asg → Nat) : ∃ j : Nat, mean N (fun x => (g x : ℚ)) = j / 2 ^ N :=
  ⟨∑ a : Fin N → Bool, g (ext a), by unfold mean; push_cast; rfl⟩

theorem mean_absErrAt (N : Nat) (f g : List (BDD m)) : ∃ j : Nat, mean N (absErrAt f g) = j / 2 ^ N := by
  obtain ⟨j, hj⟩ := mean_nat N (fun x => ((uAt f x : Int) - uAt g x).natAbs)
  refine ⟨j, ?_⟩
  rw [← hj]
  refine mean_congr N fun x => ?_
  unfold absErrAt
  rw [Int.abs_eq_natAbs, Int.cast_natCast]

theorem mean_errorRate (N : Nat) (f g : List (BDD m)) :
    ∃ j : Nat, j ≤ 2 ^ N ∧ mean N (fun x => if bitsAt f x = bitsAt g x then 0 else 1) = j / 2 ^ N := by
  have e : mean N (fun x => if bitsAt f x = bitsAt g x then (0 : ℚ) else 1) =
      mean N (fun x => ind (!decide (bitsAt f x = bitsAt g x))) := mean_congr N fun x => by
    by_cases h : bitsAt f x = bitsAt g x <;> simp [h, ind]
  rw [e, mean_ind_count]
  refine ⟨_, ?_, rfl⟩
  unfold count
  exact (Finset.card_le_univ _).trans (by simp)

/-! ## The helper -/

theorem metricDimsF_eq (ms : List SimpleMetricDim) : metricDimsF (m := m) rnd dec cv ms =
    ms.map fun d => ⟨d.gridSize, metricFunctionF rnd dec cv d.metric, d.bound⟩ := by
  induction ms with
  | nil => rfl
  | cons d ds ih => rw [metricDimsF, ih]; rfl

theorem metricDimsF_grid (ms : List SimpleMetricDim) :
    (metricDimsF (m := m) rnd dec cv ms).map (·.gridSize) = ms.map (·.gridSize) := by
  rw [metricDimsF_eq, List.map_map]
  rfl

/-- Whatever the generated operators make of a function has as many bits, over the same variables. -/
theorem generatedF {f g : List (BDD m)} {info : MinimizationInfo} {rs : Nat → Nat} {ops : List (OpFun m)}
    (h : operatorFunctionsF rnd f info rs = .ok ops) (hg : Reach ops f g) :
    g.length = f.length ∧ ∀ N, Fits N f → Fits N g :=
  have hn := hg.narrows (operatorFunctionsF_narrows h)
  ⟨hn.length_eq.symm, fun _ => hn.fits⟩

/-- With the values of the exact metrics and the same coordinates, the helper does the same. -/
theorem bucketMinimizeHelperF_same (hr : Nearest rnd) {asserts : Bool} {fuel : Nat}
    {files : String → List AigEvent × Bool} {rs : Nat → Nat}
    {info : MinimizationInfo} {f : List (BDD m)} (hload : loadInput asserts files info.input = .ok f) (hf : Fits 53 f)
    (h : ∀ d ∈ info.metrics, ∀ g : List (BDD m), g.length = f.length → (∀ N, Fits N f → Fits N g) →
      ∃ v, metricFunctionF rnd dec cv d.metric f g = .ok v ∧ metricFunction d.metric f g = .ok v ∧
        SameCell d.gridSize (toSizeT (coordinateF rnd d.gridSize v d.bound)) (toSizeT (d.gridSize * v / d.bound))) :
    bucketMinimizeHelperF (m := m) rnd dec cv asserts fuel files rs info =
      bucketMinimizeHelper asserts fuel files rs info := by
  unfold bucketMinimizeHelperF bucketMinimizeHelper
  rw [hload]
  have hrel := operatorFunctionsF_exact hr f info rs
  cases hops : operatorFunctionsF rnd f info rs with
  | error e =>
    rw [hops] at hrel
    cases hops' : operatorFunctions f info rs with
    | error e' =>
      rw [hops'] at hrel
      have : e = e' := hrel
      simp only [bind, Except.bind, hops, hops', this]
    | ok ops' => rw [hops'] at hrel; exact hrel.elim
  | ok ops =>
    rw [hops] at hrel
    obtain ⟨ops', hops', hrel⟩ := hrel.ok rfl
    simp only [bind, Except.bind, hops, hops']
    have hdim : List.Forall₂ (DimRel rnd Eq ops f) (metricDimsF rnd dec cv info.metrics) (metricDims info.metrics) := by
      rw [metricDimsF_eq, metricDims_eq, List.forall₂_map_left_iff, List.forall₂_map_right_iff, List.forall₂_same]
      intro d hd
      refine ⟨rfl, Iff.rfl, fun g hg => ?_⟩
      obtain ⟨g1, g2⟩ := generatedF hops hg
      obtain ⟨v, h1, h2, h3⟩ := h d hd g g1 g2
      dsimp only
      rw [h1, h2]
      exact ⟨fun _ => h3, rfl⟩
    have := ((bucketGreedyMinimizeF_rel' hdim rfl (hrel.imp fun _ _ ho g hg => ho g ((generatedF hops hg).2 53 hf))
      info.populateAllBuckets fuel).mono (S := Eq) fun a b hab => by
      rw [← List.forall₂_eq_eq_eq]
      exact hab.imp fun x y hxy => hxy.eq.symm).eq
    rw [this]

end Verif

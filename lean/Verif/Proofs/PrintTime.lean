import Verif.Model.Print
import Verif.Proofs.FloatTime
import Verif.Proofs.FloatBucket

/-! # Elapsed times -/

namespace Verif

variable {rnd : ℚ → ℚ}

theorem big_pow {n : Nat} (hn : n ≤ 1022) : (2 : ℚ) ^ n ≤ 2 ^ 1022 := pow_le_pow_right₀ (by norm_num) hn

theorem Nearest.rel' (h : Nearest rnd) {q : ℚ} (h0 : 1 / 2 ^ 100 ≤ q) (hb : q ≤ 2 ^ 100) :
    |rnd q - q| ≤ q / 2 ^ 53 := by
  have := h.rel (q := q)
    (le_trans (one_div_le_one_div_of_le (by positivity) (pow_le_pow_right₀ (by norm_num) (by norm_num))) h0)
    (hb.trans (big_pow (by norm_num)))
  rwa [mul_one_div] at this

/-- A `double` below a whole number is below it by at least a unit in the last place. -/
theorem isDouble_gap {d : ℚ} (hd : IsDouble d) (K c : Nat) (hc : c ≤ 20) (h2 : 2 ^ c < 2 * K) (hlt : d < K) :
    1 / (2 : ℚ) ^ (53 - c) ≤ K - d := by
  have hK : ((2 : ℚ) ^ c + 1) / 2 ≤ K := by
    have : (2 : ℚ) ^ c + 1 ≤ 2 * K := by exact_mod_cast h2
    linarith
  have hsmall : 1 / (2 : ℚ) ^ (53 - c) ≤ 1 / 2 := by
    refine one_div_le_one_div_of_le (by norm_num) ?_
    calc (2 : ℚ) = 2 ^ 1 := by norm_num
      _ ≤ 2 ^ (53 - c) := pow_le_pow_right₀ (by norm_num) (by omega)
  rcases le_or_gt d ((2 : ℚ) ^ c / 2) with hle | hgt
  · linarith
  · obtain ⟨k, e, hk, -, -, rfl⟩ := hd
    have hp : (0 : ℚ) < 2 ^ e := zpow_pos (by norm_num) _
    have he : -((53 - c : Nat) : ℤ) ≤ e := by
      by_contra hcon
      have h1 : (2 : ℚ) ^ e ≤ 2 ^ (-((53 - c : Nat) : ℤ) - 1) := zpow_le_zpow_right₀ (by norm_num) (by omega)
      have h3 : (k : ℚ) ≤ 2 ^ 53 := by exact_mod_cast (le_abs_self k).trans hk
      have h4 : (k : ℚ) * 2 ^ e ≤ 2 ^ 53 * 2 ^ (-((53 - c : Nat) : ℤ) - 1) :=
        (mul_le_mul_of_nonneg_right h3 hp.le).trans (mul_le_mul_of_nonneg_left h1 (by positivity))
      have h5 : (2 : ℚ) ^ 53 * 2 ^ (-((53 - c : Nat) : ℤ) - 1) = 2 ^ c / 2 := by
        rw [show (2 : ℚ) ^ 53 = 2 ^ (53 : ℤ) by norm_num, ← zpow_add₀ (by norm_num),
          show (53 : ℤ) + (-((53 - c : Nat) : ℤ) - 1) = (c : ℤ) - 1 by omega, zpow_sub_one₀ (by norm_num), zpow_natCast]
        rfl
      linarith
    obtain ⟨n, hn⟩ := Int.eq_ofNat_of_zero_le (by omega : 0 ≤ e + ((53 - c : Nat) : ℤ))
    have hu : (0 : ℚ) < 2 ^ (53 - c) := by positivity
    have hval : (k : ℚ) * 2 ^ e = ((k * 2 ^ n : ℤ) : ℚ) / 2 ^ (53 - c) := by
      rw [show e = (n : ℤ) - ((53 - c : Nat) : ℤ) by omega, zpow_sub₀ (by norm_num), zpow_natCast, zpow_natCast]
      push_cast; ring
    rw [hval] at hlt ⊢
    rw [div_lt_iff₀ hu] at hlt
    have h6 : k * 2 ^ n + 1 ≤ (K * 2 ^ (53 - c) : ℤ) := by exact_mod_cast hlt
    have h7 : ((k * 2 ^ n : ℤ) : ℚ) + 1 ≤ K * 2 ^ (53 - c) := by exact_mod_cast h6
    rw [le_sub_iff_add_le, ← add_div, div_le_iff₀ hu]
    linarith

/-- The parameters for which the next theorem is checked: a `double` close to `K / 1000`. -/
def milliTable (K : Nat) : Nat × Nat × Nat :=
  let a := Nat.log2 K
  let j := if K * 2 ^ (62 - a) > 1000 * 2 ^ 53 then 61 - a else 62 - a
  (j, if K = 2 ^ a then a else a + 1, (2 * (K * 2 ^ j) + 1000) / 2000)

theorem milliTable_ok : ∀ K ∈ List.range 1000, 1 ≤ K → (milliTable K).1 ≤ 100 ∧ (milliTable K).2.1 ≤ 10 ∧
    (milliTable K).2.2 ≤ 2 ^ 53 ∧ 2 ^ (milliTable K).2.1 < 2 * K ∧
    ((1000 * (milliTable K).2.2 - K * 2 ^ (milliTable K).1 : ℤ)).natAbs * 2 ^ (54 - (milliTable K).2.1) <
      2 ^ (milliTable K).1 := by
  decide +kernel

/-- Thousandths come back. -/
theorem milli_back (hr : Nearest rnd) (K : Nat) (hK : K < 1000) : (K : ℚ) ≤ rnd (rnd (K / 1000) * 1000) := by
  rcases Nat.eq_zero_or_pos K with rfl | h1
  · have h0 : rnd (((0 : Nat) : ℚ) / 1000) = 0 := by
      have := hr.exact isDouble_zero (by simp)
      simpa using this
    rw [h0]
    have := hr.exact isDouble_zero (by simp)
    simp [this]
  obtain ⟨t1, t2, t3, t4, t5⟩ := milliTable_ok K (List.mem_range.mpr hK) h1
  set j := (milliTable K).1
  set c := (milliTable K).2.1
  set D := (milliTable K).2.2
  have hKq : (K : ℚ) ≤ 1000 := by exact_mod_cast hK.le
  have hK1 : (1 : ℚ) ≤ K := by exact_mod_cast h1
  have hx1 : |(K : ℚ) / 1000| ≤ 2 ^ 1023 := by
    rw [abs_of_nonneg (by positivity)]
    exact (show (K : ℚ) / 1000 ≤ 1 by linarith).trans (one_le_pow₀ (by norm_num))
  have hj : (0 : ℚ) < 2 ^ j := by positivity
  have hnear := hr.near (K / 1000) (D / 2 ^ j) hx1 (isDouble_nat_div D j t3 (by omega))
  have herr : |(D : ℚ) / 2 ^ j - K / 1000| * 1000 * 2 ^ (54 - c) < 1 := by
    have e1 : (D : ℚ) / 2 ^ j - K / 1000 = ((1000 * D - K * 2 ^ j : ℤ) : ℚ) / (1000 * 2 ^ j) := by
      push_cast
      field_simp
    rw [e1, abs_div, abs_of_pos (by positivity : (0 : ℚ) < 1000 * 2 ^ j), ← Int.cast_abs, Int.abs_eq_natAbs,
      div_mul_eq_mul_div, div_mul_eq_mul_div, div_lt_one (by positivity)]
    have : (((1000 * D - K * 2 ^ j : ℤ).natAbs * 2 ^ (54 - c) : Nat) : ℚ) < ((2 ^ j : Nat) : ℚ) := by exact_mod_cast t5
    rw [Nat.cast_mul, Nat.cast_pow, Nat.cast_pow, Nat.cast_ofNat] at this
    rw [Int.cast_natCast]
    linarith
  set s := rnd (K / 1000)
  have hs : |s * 1000 - K| * 2 ^ (54 - c) < 1 := by
    have : |s * 1000 - K| = |s - K / 1000| * 1000 := by
      rw [show s * 1000 - K = (s - K / 1000) * 1000 by ring, abs_mul, abs_of_pos (by norm_num : (0 : ℚ) < 1000)]
    rw [this]
    have h2 : (0 : ℚ) < 2 ^ (54 - c) := by positivity
    nlinarith
  have h54 : (1 : ℚ) ≤ 2 ^ (54 - c) := one_le_pow₀ (by norm_num)
  have hs1 : |s * 1000 - K| ≤ 1 := by nlinarith [abs_nonneg (s * 1000 - K)]
  have hy : |s * 1000| ≤ 2 ^ 1023 := by
    have h3 : |s * 1000| ≤ 1001 := by
      have := abs_le.mp hs1
      rw [abs_le]
      constructor <;> linarith [this.1, this.2]
    exact h3.trans ((show (1001 : ℚ) ≤ 2 ^ 10 by norm_num).trans (pow_le_pow_right₀ (by norm_num) (by norm_num)))
  by_contra hcon
  have hcon := not_le.mp hcon
  have hgap := isDouble_gap (hr.isDouble _ hy) K c (by omega) t4 hcon
  have hn := hr.near (s * 1000) K hy (isDouble_nat K (by omega))
  rw [abs_sub_comm (K : ℚ)] at hn
  have e2 : (2 : ℚ) ^ (54 - c) = 2 * 2 ^ (53 - c) := by
    rw [show 54 - c = (53 - c) + 1 by omega, pow_succ]; ring
  have hp : (0 : ℚ) < 2 ^ (53 - c) := by positivity
  have h8 : 1 ≤ (K - rnd (s * 1000)) * 2 ^ (53 - c) := by rwa [div_le_iff₀ hp] at hgap
  have h9 : K - rnd (s * 1000) ≤ 2 * |s * 1000 - K| := by
    have a1 := (abs_le.mp hn).1
    have a2 := neg_abs_le (s * 1000 - K)
    linarith
  rw [e2] at hs
  have h10 : (K - rnd (s * 1000)) * 2 ^ (53 - c) ≤ 2 * |s * 1000 - K| * 2 ^ (53 - c) :=
    mul_le_mul_of_nonneg_right h9 hp.le
  nlinarith

/-- The milliseconds computed from the ticks, compared with whole numbers. -/
structure MsOf (rnd : ℚ → ℚ) (n : Nat) : Prop where
  isDouble : IsDouble (elapsedMs rnd n)
  below : ∀ K : Nat, n < K * 1000000 → K * 1000000 ≤ 2 ^ 50 + 1000000 → elapsedMs rnd n < K
  small : ∀ K : Nat, K < 1000 → K * 1000000 ≤ n → (K : ℚ) ≤ elapsedMs rnd n
  seconds : ∀ j : Nat, j * 1000000000 ≤ n → ((1000 * j : Nat) : ℚ) ≤ elapsedMs rnd n

theorem msOf (hr : Nearest rnd) (n : Nat) (hn : n ≤ 2 ^ 50) : MsOf rnd n := by
  have hnq : (n : ℚ) ≤ 2 ^ 50 := by exact_mod_cast hn
  have e0 : elapsedMs rnd n = rnd (rnd (n / 1000000000) * 1000) := by
    unfold elapsedMs
    rw [Int.cast_natCast, hr.small n (hn.trans (by norm_num))]
  have b1023 : ∀ {q : ℚ}, q ≤ 2 ^ 100 → q ≤ 2 ^ 1023 := fun h => h.trans (pow_le_pow_right₀ (by norm_num) (by norm_num))
  set x : ℚ := n / 1000000000 with hx
  have x0 : 0 ≤ x := by positivity
  have x1 : x ≤ 2 ^ 50 := by
    rw [hx, div_le_iff₀ (by norm_num)]
    exact hnq.trans (by norm_num)
  have hxb : x ≤ 2 ^ 1023 := b1023 (x1.trans (pow_le_pow_right₀ (by norm_num) (by norm_num)))
  have hxa : |x| ≤ 2 ^ 1023 := (abs_of_nonneg x0).le.trans hxb
  set s := rnd x with hs
  have s0 : 0 ≤ s := hr.nonneg x0 hxb
  have d50 : IsDouble ((2 : ℚ) ^ 50) := by
    have := isDouble_nat (2 ^ 50) (by norm_num)
    rw [Nat.cast_pow, Nat.cast_ofNat] at this
    exact this
  have s1 : s ≤ 2 ^ 50 := hr.rnd_le hxa d50 x1
  have y0 : 0 ≤ s * 1000 := by positivity
  have y1 : s * 1000 ≤ 2 ^ 60 := by
    calc s * 1000 ≤ 2 ^ 50 * 1000 := by linarith
      _ ≤ 2 ^ 60 := by norm_num
  have y2 : s * 1000 ≤ 2 ^ 100 := y1.trans (pow_le_pow_right₀ (by norm_num) (by norm_num))
  have hya : |s * 1000| ≤ 2 ^ 1023 := (abs_of_nonneg y0).le.trans (b1023 y2)
  -- relative errors
  have rel : 1 ≤ n → s ≤ x * (1 + 1 / 2 ^ 53) ∧ x * (1 - 1 / 2 ^ 53) ≤ s ∧ elapsedMs rnd n ≤ s * 1000 * (1 + 1 / 2 ^ 53) ∧
      s * 1000 * (1 - 1 / 2 ^ 53) ≤ elapsedMs rnd n := fun h1 => by
    have hx1 : 1 / 2 ^ 30 ≤ x := by
      have : (1 : ℚ) ≤ n := by exact_mod_cast h1
      rw [hx, div_le_div_iff₀ (by positivity) (by norm_num)]
      have : (2 : ℚ) ^ 30 ≤ n * 2 ^ 30 := le_mul_of_one_le_left (by positivity) this
      exact le_trans (by norm_num) this
    have hx2 : 1 / 2 ^ 100 ≤ x :=
      le_trans (one_div_le_one_div_of_le (by positivity) (pow_le_pow_right₀ (by norm_num) (by norm_num))) hx1
    have r1 := abs_le.mp (hr.rel' hx2 (x1.trans (pow_le_pow_right₀ (by norm_num) (by norm_num))))
    rw [← hs] at r1
    have hs1 : 1 / 2 ^ 100 ≤ s * 1000 := by
      have : x * (1 - 1 / 2 ^ 53) ≤ s := by linarith [r1.1]
      have h3 : (1 : ℚ) / 2 ^ 100 ≤ 1 / 2 ^ 30 * (1 - 1 / 2 ^ 53) := by norm_num
      have h4 : (1 : ℚ) / 2 ^ 30 * (1 - 1 / 2 ^ 53) ≤ x * (1 - 1 / 2 ^ 53) :=
        mul_le_mul_of_nonneg_right hx1 (by norm_num)
      linarith
    have r2 := abs_le.mp (hr.rel' hs1 y2)
    rw [e0]
    exact ⟨by linarith [r1.2], by linarith [r1.1], by linarith [r2.2], by linarith [r2.1]⟩
  refine ⟨?_, ?_, ?_, ?_⟩
  · rw [e0]; exact hr.isDouble _ hya
  · intro K h1 h2
    rcases Nat.eq_zero_or_pos n with h0 | hpos
    · have hK : 0 < K := by omega
      have hx0 : x = 0 := by rw [hx, h0]; norm_num
      have hz : rnd 0 = 0 := hr.exact isDouble_zero (by simp)
      rw [e0, hs, hx0, hz, zero_mul, hz]
      exact_mod_cast hK
    · obtain ⟨r1, -, r2, -⟩ := rel hpos
      have h3 : (n : ℚ) + 1 ≤ K * 1000000 := by exact_mod_cast h1
      have h4 : (K : ℚ) * 1000000 ≤ 2 ^ 50 + 1000000 := by exact_mod_cast h2
      have h5 : x * 1000 ≤ K - 1 / 1000000 := by
        rw [hx]; linarith
      have h6 : elapsedMs rnd n ≤ x * 1000 * (1 + 1 / 2 ^ 53) ^ 2 := by
        refine r2.trans ?_
        have : s * 1000 * (1 + 1 / 2 ^ 53) ≤ x * (1 + 1 / 2 ^ 53) * 1000 * (1 + 1 / 2 ^ 53) :=
          mul_le_mul_of_nonneg_right (mul_le_mul_of_nonneg_right r1 (by norm_num)) (by norm_num)
        linarith
      have h7 : x * 1000 * (1 + 1 / 2 ^ 53) ^ 2 ≤ (K - 1 / 1000000) * (1 + 1 / 2 ^ 53) ^ 2 :=
        mul_le_mul_of_nonneg_right h5 (by norm_num)
      have h8 : (K - 1 / 1000000 : ℚ) * (1 + 1 / 2 ^ 53) ^ 2 < K := by
        norm_num at h4 ⊢
        linarith
      linarith
  · intro K hK h1
    rcases h1.eq_or_lt with h2 | h2
    · have : x = K / 1000 := by
        rw [hx, ← h2]; push_cast; ring
      rw [e0, hs, this]
      exact milli_back hr K hK
    · obtain ⟨-, r1, -, r2⟩ := rel (by omega)
      have h3 : (K : ℚ) * 1000000 + 1 ≤ n := by exact_mod_cast h2
      have h5 : K + 1 / 1000000 ≤ x * 1000 := by
        rw [hx]; linarith
      have h6 : x * 1000 * (1 - 1 / 2 ^ 53) ^ 2 ≤ elapsedMs rnd n := by
        refine le_trans ?_ r2
        have : x * (1 - 1 / 2 ^ 53) * 1000 * (1 - 1 / 2 ^ 53) ≤ s * 1000 * (1 - 1 / 2 ^ 53) :=
          mul_le_mul_of_nonneg_right (mul_le_mul_of_nonneg_right r1 (by norm_num)) (by norm_num)
        linarith
      have h7 : (K + 1 / 1000000) * (1 - 1 / 2 ^ 53) ^ 2 ≤ x * 1000 * (1 - 1 / 2 ^ 53) ^ 2 :=
        mul_le_mul_of_nonneg_right h5 (by norm_num)
      have h8 : (K : ℚ) ≤ (K + 1 / 1000000 : ℚ) * (1 - 1 / 2 ^ 53) ^ 2 := by
        have : (K : ℚ) ≤ 1000 := by exact_mod_cast hK.le
        norm_num
        linarith
      linarith
  · intro j hj
    have h1 : (j : ℚ) ≤ x := by
      rw [hx, le_div_iff₀ (by norm_num)]
      exact_mod_cast hj
    have hj53 : 1000 * j ≤ 2 ^ 53 := by omega
    have h2 : (j : ℚ) ≤ s := hr.le_rnd hxa (isDouble_nat j (by omega)) h1
    rw [e0]
    refine hr.le_rnd hya (isDouble_nat (1000 * j) hj53) ?_
    push_cast
    linarith

end Verif

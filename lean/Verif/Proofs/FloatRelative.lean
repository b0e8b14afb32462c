import Verif.Model.FloatRelative
import Verif.Proofs.RelSearch
import Verif.Proofs.FloatAdd
import Verif.Proofs.FloatBucket
import Verif.Props.Float
import Verif.Props.FloatMetrics
import Mathlib.Algebra.Order.Group.MinMax

/-!
# Lemmas about the relative errors with `double`s
-/

namespace Verif

variable {m : Mgr} {rnd lg dec : ℚ → ℚ}

/-! ## Multiplication by constants -/

theorem mulCF (hr : Nearest rnd) (hl : Log2 lg) (f : List (BDD m)) (c : Nat) (h : c < 2 ^ 256) :
    ∃ r, bddMultiplyConstantF rnd lg f c = .ok r ∧ ∀ x, uAt r x = uAt f x * c := by
  unfold bddMultiplyConstantF
  have key : c ≤ 2 ^ ((if c = 0 then 0 else ⌈lg (rnd c)⌉.toNat) + 1) := by
    split
    · omega
    · rename_i hc
      set k := Nat.log 2 c with hk
      have h1 : 2 ^ k ≤ c := Nat.pow_log_le_self 2 hc
      have h2 : c < 2 ^ (k + 1) := Nat.lt_pow_succ_log_self (by norm_num) c
      have hk256 : k < 256 := (Nat.pow_lt_pow_iff_right (by norm_num : 1 < 2)).mp (lt_of_le_of_lt h1 h)
      have h3 : ((2 ^ k : Nat) : ℚ) ≤ rnd c := by
        have hc1 : (c : ℚ) ≤ 2 ^ 1023 := le_trans (by exact_mod_cast h.le : (c : ℚ) ≤ 2 ^ 256) (two_pow_le_big (by norm_num))
        refine hr.double_le (by positivity) ?_ (by exact_mod_cast h1) hc1
        push_cast
        exact isDouble_two_pow (by omega)
      have h4 : ((k : ℤ) : ℚ) ≤ lg (rnd c) := hl.ge _ _ (by rw [zpow_natCast]; exact_mod_cast h3)
      have h5 : (k : ℤ) ≤ ⌈lg (rnd c)⌉ := by exact_mod_cast h4.trans (Int.le_ceil _)
      refine h2.le.trans (Nat.pow_le_pow_right (by norm_num) ?_)
      omega
  obtain ⟨r, h1, -, h2⟩ := bddMultiplyConstantLg_spec f c _ h key
  exact ⟨r, h1, h2⟩

/-- The fractional part of a `double`, shifted to the left, is a `double`. -/
theorem isDouble_fract {q : ℚ} (hq : IsDouble q) (h0 : 0 ≤ q) {e : Nat} (he : e < 64) :
    IsDouble ((q - ⌊q⌋) * 2 ^ e) := by
  obtain ⟨k, x, hk, hx1, hx2, rfl⟩ := hq
  have hp : (0 : ℚ) < 2 ^ x := zpow_pos (by norm_num) x
  have hk0 : 0 ≤ k := by
    by_contra hc
    have : (k : ℚ) < 0 := by exact_mod_cast not_le.mp hc
    have := mul_neg_of_neg_of_pos this hp
    linarith
  rcases le_or_gt 0 x with hx | hx
  · obtain ⟨n, rfl⟩ := Int.eq_ofNat_of_zero_le hx
    have : (k : ℚ) * 2 ^ (n : ℤ) = ((k * 2 ^ n : ℤ) : ℚ) := by push_cast; rw [zpow_natCast]
    rw [this, Int.floor_intCast, sub_self, zero_mul]
    exact isDouble_zero
  · obtain ⟨n, rfl⟩ : ∃ n : Nat, x = -(n : ℤ) := ⟨x.natAbs, by omega⟩
    have hfl : ⌊(k : ℚ) * 2 ^ (-(n : ℤ))⌋ = k / 2 ^ n := by
      rw [zpow_neg, zpow_natCast, ← div_eq_mul_inv]
      have := Rat.floor_intCast_div_natCast k (2 ^ n)
      push_cast at this
      exact this
    have hmod : (k : ℚ) = ((k % 2 ^ n : ℤ) : ℚ) + 2 ^ n * ((k / 2 ^ n : ℤ) : ℚ) := by
      have := Int.emod_add_mul_ediv k (2 ^ n)
      exact_mod_cast this.symm
    have hpn : (0 : ℤ) < 2 ^ n := by positivity
    refine ⟨k % 2 ^ n, e - n, ?_, by omega, by omega, ?_⟩
    · rw [abs_of_nonneg (Int.emod_nonneg _ hpn.ne')]
      rw [abs_of_nonneg hk0] at hk
      have h1 := Int.emod_add_mul_ediv k (2 ^ n)
      have h2 := mul_nonneg hpn.le (Int.ediv_nonneg hk0 hpn.le)
      exact (by linarith : k % 2 ^ n ≤ k).trans hk
    · rw [hfl, sub_eq_add_neg (e : ℤ), zpow_add₀ (by norm_num), zpow_natCast]
      have h1 : (2 : ℚ) ^ (-(n : ℤ)) * 2 ^ n = 1 := by
        rw [zpow_neg, zpow_natCast]; exact inv_mul_cancel₀ (by positivity)
      generalize (2 : ℚ) ^ (-(n : ℤ)) = z at h1 ⊢
      have : ((k / 2 ^ n : ℤ) : ℚ) = 2 ^ n * ((k / 2 ^ n : ℤ) : ℚ) * z := by
        rw [mul_comm (2 ^ n : ℚ), mul_assoc, mul_comm (2 ^ n : ℚ) z, h1, mul_one]
      rw [this]
      nth_rewrite 1 [hmod]
      ring

/-- The width is enough. -/
theorem Log2.width (hl : Log2 lg) {q : ℚ} (h1 : 0 < q) : q ≤ 2 ^ (⌈lg q⌉.toNat + 2) := by
  rcases le_or_gt 1 q with h | h
  · set k := Nat.log 2 ⌊q⌋₊ with hk
    have hf : ⌊q⌋₊ ≠ 0 := (Nat.floor_pos.mpr h).ne'
    have h2 : 2 ^ k ≤ ⌊q⌋₊ := Nat.pow_log_le_self 2 hf
    have h3 : ⌊q⌋₊ + 1 ≤ 2 ^ (k + 1) := Nat.lt_pow_succ_log_self (by norm_num) _
    have h4 : (2 : ℚ) ^ k ≤ q := le_trans (by exact_mod_cast h2) (Nat.floor_le h1.le)
    have h5 : ((k : ℤ) : ℚ) ≤ lg q := hl.ge _ _ (by rw [zpow_natCast]; exact h4)
    have h6 : (k : ℤ) ≤ ⌈lg q⌉ := by exact_mod_cast h5.trans (Int.le_ceil _)
    have h7 : q ≤ 2 ^ (k + 1) := (Nat.lt_floor_add_one q).le.trans (by exact_mod_cast h3)
    exact h7.trans (pow_le_pow_right₀ (by norm_num) (by omega))
  · exact h.le.trans (one_le_pow₀ (by norm_num))

/-- Multiplying by a `double` of at least 1 gives the same numbers as the exact multiplication. -/
theorem mulQF (hr : Nearest rnd) (hl : Log2 lg) (f : List (BDD m)) (q : ℚ) (e : Nat) (hq : IsDouble q)
    (h1 : 1 ≤ q) (h2 : q < 2 ^ 256) (he : e < 64) :
    ∃ r r', bddMultiplyConstantQF rnd lg f q e = .ok r ∧ bddMultiplyConstantQ f q e = .ok r' ∧
      r.length = f.length + (⌈lg q⌉.toNat + 2) ∧ ∀ x, uAt r x = uAt r' x := by
  have hpos : 0 < q := by linarith
  obtain ⟨a1, a, ha1, ha, hal, hav, -⟩ := mulFrac_core f q e _ hpos h2 (hl.width hpos)
  have hc : q ≤ 2 ^ (Nat.clog 2 ⌈q⌉.toNat + 2) := by
    have h3 : ⌈q⌉.toNat ≤ 2 ^ Nat.clog 2 ⌈q⌉.toNat := Nat.le_pow_clog (by norm_num) _
    have h5 : q ≤ (⌈q⌉.toNat : ℚ) := by
      rw [← Int.cast_natCast (R := ℚ), Int.toNat_of_nonneg (Int.ceil_nonneg hpos.le)]
      exact Int.le_ceil _
    have h6 : q ≤ 2 ^ Nat.clog 2 ⌈q⌉.toNat := le_trans h5 (by exact_mod_cast h3)
    exact h6.trans (pow_le_pow_right₀ (by norm_num) (by omega))
  obtain ⟨b1, b, hb1, hb, -, hbv, -⟩ := mulFrac_core f q e _ hpos h2 hc
  have hlg : (0 : ℤ) ≤ ⌈lg q⌉ := by
    have := hl.ge q 0 (by simpa using h1)
    exact_mod_cast this.trans (Int.le_ceil _)
  have hfl : ⌊q⌋ < 2 ^ 256 := by
    have := (Int.floor_le q).trans_lt h2
    exact_mod_cast this
  have hu : u256 ⌊q⌋.toNat = ⌊q⌋.toNat := by
    unfold u256
    exact Nat.mod_eq_of_lt (by omega)
  have hfr1 : q - ⌊q⌋ < 1 := by linarith [Int.lt_floor_add_one q]
  have hfr0 : 0 ≤ q - ⌊q⌋ := by linarith [Int.floor_le q]
  have hrn : rnd ((q - ⌊q⌋) * 2 ^ e) = (q - ⌊q⌋) * 2 ^ e := by
    have h0 : 0 ≤ (q - ⌊q⌋) * 2 ^ e := mul_nonneg hfr0 (by positivity)
    refine hr.exact (isDouble_fract hq hpos.le he) ?_
    rw [abs_of_nonneg h0]
    calc (q - ⌊q⌋) * 2 ^ e ≤ 1 * 2 ^ e := mul_le_mul_of_nonneg_right hfr1.le (by positivity)
      _ = 2 ^ e := one_mul _
      _ ≤ 2 ^ 1023 := two_pow_le_big (by omega)
  refine ⟨a, b, ?_, ?_, hal, fun x => by rw [hav, hbv]⟩
  · unfold bddMultiplyConstantQF
    rw [if_neg (not_le.mpr hpos), if_neg (not_lt.mpr hlg), if_neg (not_lt.mpr h2.le), if_neg (by omega)]
    simp only [hu, hrn, ha1, ha, bind, Except.bind]
  · unfold bddMultiplyConstantQ
    rw [if_neg (by linarith), if_neg (not_le.mpr h2), if_neg (by omega)]
    simp only [hb1, hb, bind, Except.bind]

/-! ## `wcre_randomized_search` -/

/-- The three outcomes of comparing `D/F` with `c/e`. -/
theorem hasGeF_cases (hr : Nearest rnd) (hl : Log2 lg) (D F : List (BDD m))
    (c e : Nat) (hc : c < 2 ^ 256) (he : e < 2 ^ 256) :
    ((∃ x, uAt D x * e > uAt F x * c) ∧ hasGreaterEqualBothF rnd lg D F c e = .ok (true, false)) ∨
    ((∀ x, uAt D x * e ≤ uAt F x * c) ∧
      (((∃ x, uAt D x * e = uAt F x * c) ∧ hasGreaterEqualBothF rnd lg D F c e = .ok (true, true)) ∨
      ((¬ ∃ x, uAt D x * e = uAt F x * c) ∧ hasGreaterEqualBothF rnd lg D F c e = .ok (false, false)))) := by
  obtain ⟨r1, h1, v1⟩ := mulCF hr hl D e he
  obtain ⟨r2, h2, v2⟩ := mulCF hr hl F c hc
  have := existsGreaterEquals_cases r1 r2
  simp only [v1, v2] at this
  simp only [hasGreaterEqualBothF, h1, h2, bind, Except.bind]
  rcases this with ⟨a, b⟩ | ⟨a, ⟨b, c⟩ | ⟨b, c⟩⟩
  · exact .inl ⟨a, by rw [b]⟩
  · exact .inr ⟨a, .inl ⟨b, by rw [c]⟩⟩
  · exact .inr ⟨a, .inr ⟨b, by rw [c]⟩⟩

theorem doubleCounterF_spec (hr : Nearest rnd) (hl : Log2 lg) (D F : List (BDD m))
    (hF : ∀ x, 0 < uAt F x) (hD : D.length ≤ 62) :
    ∀ (fuel k : Nat), (∃ x, uAt D x > uAt F x * 2 ^ k) →
    (doubleCounterF rnd lg D F fuel (2 ^ k) = .error .fuel ∧ fuel + k < 62) ∨
      ∃ s, doubleCounterF rnd lg D F fuel (2 ^ k) = .ok s ∧ StartOk D F s
  | 0, k, ⟨x, hx⟩ => by
      refine .inl ⟨rfl, ?_⟩
      have h1 : 2 ^ k < 2 ^ 62 := lt_of_le_of_lt (Nat.le_mul_of_pos_left _ (hF x))
        (lt_trans hx (uAt_lt' hD x))
      have := (Nat.pow_lt_pow_iff_right (by norm_num : 1 < 2)).mp h1
      omega
  | fuel + 1, k, ⟨x, hx⟩ => by
      have h1 : 2 ^ k < 2 ^ 62 := lt_of_le_of_lt (Nat.le_mul_of_pos_left _ (hF x))
        (lt_trans hx (uAt_lt' hD x))
      have hk : k < 62 := (Nat.pow_lt_pow_iff_right (by norm_num : 1 < 2)).mp h1
      have hu : u256 (2 ^ k * 2) = 2 ^ (k + 1) := by
        unfold u256
        rw [← pow_succ]
        exact Nat.mod_eq_of_lt (Nat.pow_lt_pow_right (by norm_num) (by omega))
      have hlt : 2 ^ (k + 1) < 2 ^ 63 * 2 := by
        calc 2 ^ (k + 1) < 2 ^ 64 := Nat.pow_lt_pow_right (by norm_num) (by omega)
          _ = _ := by norm_num
      unfold doubleCounterF
      rw [hu]
      rcases hasGeF_cases hr hl D F (2 ^ (k + 1)) 1 (by omega) (by norm_num) with
        ⟨⟨y, hy⟩, h⟩ | ⟨hle, ⟨⟨y, hy⟩, h⟩ | ⟨hn, h⟩⟩
      · simp only [h, bind, Except.bind]
        rcases doubleCounterF_spec hr hl D F hF hD fuel (k + 1) ⟨y, by omega⟩ with ⟨h2, h3⟩ | h2
        · exact .inl ⟨by simpa using h2, by omega⟩
        · exact .inr (by simpa using h2)
      · have hb : 2 ^ (k + 1) < 2 ^ 63 := by
          have := Nat.le_mul_of_pos_left (2 ^ (k + 1)) (hF y)
          have := uAt_lt' hD y
          omega
        refine .inr ⟨.inl (2 ^ (k + 1), 1), by simp [h, bind, Except.bind, toLong_eq hb],
          by norm_num, ⟨⟨y, hy⟩, hle⟩, k + 1, .inl ⟨rfl, rfl⟩⟩
      · refine .inr ⟨.inr (2 ^ (k + 1) / 2, 1), by simp [h, bind, Except.bind], ?_⟩
        rw [pow_succ, Nat.mul_div_cancel _ (by norm_num)]
        exact ⟨by positivity, by norm_num, by omega, by norm_num, x, by omega⟩

theorem doubleDenominatorF_spec (hr : Nearest rnd) (hl : Log2 lg) (D F : List (BDD m))
    (hF : ∀ x, 0 < uAt F x) (hFl : F.length ≤ 62)
    (hD : ∃ x, uAt D x ≠ 0) :
    ∀ (fuel k : Nat), (∀ x, uAt D x * 2 ^ k < uAt F x) →
    (doubleDenominatorF rnd lg D F fuel (2 ^ k) = .error .fuel ∧ fuel + k < 62) ∨
      ∃ s, doubleDenominatorF rnd lg D F fuel (2 ^ k) = .ok s ∧ StartOk D F s
  | 0, k, hlt => by
      refine .inl ⟨rfl, ?_⟩
      obtain ⟨x, hx⟩ := hD
      have h1 : 2 ^ k < 2 ^ 62 := lt_of_le_of_lt (Nat.le_mul_of_pos_left _ (Nat.pos_of_ne_zero hx))
        (lt_trans (hlt x) (uAt_lt' hFl x))
      have := (Nat.pow_lt_pow_iff_right (by norm_num : 1 < 2)).mp h1
      omega
  | fuel + 1, k, hlt => by
      obtain ⟨x, hx⟩ := hD
      have h1 : 2 ^ k < 2 ^ 62 := lt_of_le_of_lt (Nat.le_mul_of_pos_left _ (Nat.pos_of_ne_zero hx))
        (lt_trans (hlt x) (uAt_lt' hFl x))
      have hk : k < 62 := (Nat.pow_lt_pow_iff_right (by norm_num : 1 < 2)).mp h1
      have hu : u256 (2 ^ k * 2) = 2 ^ (k + 1) := by
        unfold u256
        rw [← pow_succ]
        exact Nat.mod_eq_of_lt (Nat.pow_lt_pow_right (by norm_num) (by omega))
      have hlt' : 2 ^ (k + 1) < 2 ^ 63 := by rw [pow_succ]; omega
      have hpos : 0 < 2 ^ (k + 1) := by positivity
      unfold doubleDenominatorF
      rw [hu]
      rcases hasGeF_cases hr hl D F 1 (2 ^ (k + 1)) (by norm_num) (by omega) with
        ⟨⟨y, hy⟩, h⟩ | ⟨hle, ⟨⟨y, hy⟩, h⟩ | ⟨hn, h⟩⟩
      · exact .inr ⟨.inr (1, 2 ^ (k + 1)), by simp [h, bind, Except.bind],
          by norm_num, hpos, by norm_num, hlt', y, hy⟩
      · exact .inr ⟨.inl (1, 2 ^ (k + 1)), by simp [h, bind, Except.bind, toLong_eq hlt'],
          hpos, ⟨⟨y, hy⟩, hle⟩, k + 1, .inr ⟨rfl, rfl⟩⟩
      · simp only [h, bind, Except.bind]
        rcases doubleDenominatorF_spec hr hl D F hF hFl ⟨x, hx⟩ fuel (k + 1) (fun y => by
          have h2 := hle y
          have h3 : uAt D y * 2 ^ (k + 1) ≠ uAt F y * 1 := fun h => hn ⟨y, h⟩
          omega) with ⟨h2, h3⟩ | h2
        · exact .inl ⟨by simpa using h2, by omega⟩
        · exact .inr (by simpa using h2)

theorem sampleLoopF_spec (D F : List (BDD m)) (hF : ∀ x, 0 < uAt F x) (hD : D.length ≤ 62)
    (hFl : F.length ≤ 62) (gr : BDD m) (n : Nat) (rs : Nat → Nat → Nat) :
    ∀ (k i : Nat) (cd cd' : Nat × Nat), cd.1 < 2 ^ 63 → 0 < cd.2 → cd.2 < 2 ^ 63 →
    sampleLoopF rnd D F gr n rs k i cd = .ok cd' → Reached D F cd cd'
  | 0, i, cd, cd', _, _, _, h => by
      simp only [sampleLoopF, Except.ok.injEq] at h
      exact .inl h.symm
  | k + 1, i, cd, cd', h1, h2, h3, h => by
      simp only [sampleLoopF, bind, Except.bind] at h
      split at h
      · simp at h
      rename_i inp hinp
      split at h
      · simp at h
      rename_i tc htc
      split at h
      · simp at h
      rename_i td htd
      have etc := C16_eval_sound D inp tc htc
      have etd := C16_eval_sound F inp td htd
      set x := asgOf inp
      have b1 : uAt D x < 2 ^ 62 := uAt_lt' hD x
      have b2 : uAt F x < 2 ^ 62 := uAt_lt' hFl x
      have u1 : u256 (tc * cd.2) = tc * cd.2 := by
        unfold u256
        apply Nat.mod_eq_of_lt
        calc tc * cd.2 ≤ 2 ^ 62 * 2 ^ 63 := Nat.mul_le_mul (by omega) h3.le
          _ < 2 ^ 256 := by norm_num
      have u2 : u256 (cd.1 * td) = cd.1 * td := by
        unfold u256
        apply Nat.mod_eq_of_lt
        calc cd.1 * td ≤ 2 ^ 63 * 2 ^ 62 := Nat.mul_le_mul h1.le (by omega)
          _ < 2 ^ 256 := by norm_num
      rw [u1, u2] at h
      split at h
      · rename_i hgt
        have hpos : 0 < tc := by
          rcases Nat.eq_zero_or_pos tc with h0 | h0
          · rw [h0] at hgt; simp at hgt
          · exact h0
        have htd0 : 0 < td := by rw [etd]; exact hF x
        rcases sampleLoopF_spec D F hF hD hFl gr n rs k (i + 1) (tc, td) cd' (by simp only; omega)
          htd0 (by simp only; omega) h with he | ⟨p1, p2, p3⟩
        · right
          rw [he]
          exact ⟨hpos, hgt, x, by rw [etc, etd]⟩
        · right
          refine ⟨p1, ?_, p3⟩
          simp only at p2
          -- cd.1/cd.2 < tc/td < cd'.1/cd'.2
          have q1 : cd.1 * td * cd'.2 ≤ tc * cd.2 * cd'.2 := Nat.mul_le_mul_right _ hgt.le
          have q2 : tc * cd'.2 * cd.2 < cd'.1 * td * cd.2 := Nat.mul_lt_mul_of_pos_right p2 h2
          have q3 : (cd.1 * cd'.2) * td < (cd'.1 * cd.2) * td := by
            calc (cd.1 * cd'.2) * td = cd.1 * td * cd'.2 := by ring
              _ ≤ tc * cd.2 * cd'.2 := q1
              _ = tc * cd'.2 * cd.2 := by ring
              _ < cd'.1 * td * cd.2 := q2
              _ = _ := by ring
          exact lt_of_mul_lt_mul_right q3 (Nat.zero_le _)
      · exact sampleLoopF_spec D F hF hD hFl gr n rs k (i + 1) cd cd' h1 h2 h3 h

/-- The set `greater` of the main loop. -/
theorem greaterF_spec (hr : Nearest rnd) (hl : Log2 lg) (D F : List (BDD m))
    (gt0 : BDD m) (c0 e0 c e : Nat) (he0 : 0 < e0)
    (hgt0 : ∀ x, gt0.eval x = true ↔ uAt D x * e0 > uAt F x * c0) (h : LoopInv D F c0 e0 c e) :
    ∃ r1 r2, bddMultiplyConstantF rnd lg (D.map (·.and gt0)) e = .ok r1 ∧
      bddMultiplyConstantF rnd lg (F.map (·.and gt0)) c = .ok r2 ∧
      ∀ x, (greaterThan r1 r2).eval x = true ↔ uAt D x * e > uAt F x * c := by
  obtain ⟨r1, h1, v1⟩ := mulCF hr hl (D.map (·.and gt0)) e (by have := h.e_lt; omega)
  obtain ⟨r2, h2, v2⟩ := mulCF hr hl (F.map (·.and gt0)) c (by have := h.c_lt; omega)
  refine ⟨r1, r2, h1, h2, fun x => ?_⟩
  rw [greaterThan_eval, decide_eq_true_eq, v1, v2, uAt_masked, uAt_masked]
  split
  · rfl
  · rename_i hx
    rw [hgt0] at hx
    constructor
    · intro hc; simp at hc
    · intro hgt
      exfalso
      apply hx
      have q : uAt F x * c0 * e < uAt D x * e0 * e := by
        calc uAt F x * c0 * e = uAt F x * (c0 * e) := by ring
          _ ≤ uAt F x * (c * e0) := Nat.mul_le_mul_left _ h.ge
          _ = uAt F x * c * e0 := by ring
          _ < uAt D x * e * e0 := Nat.mul_lt_mul_of_pos_right hgt he0
          _ = _ := by ring
      exact lt_of_mul_lt_mul_right q (Nat.zero_le _)

theorem randomizedLoopF_spec (hr : Nearest rnd) (hl : Log2 lg) (D F : List (BDD m))
    (hF : ∀ x, 0 < uAt F x) (hD : D.length ≤ 62)
    (hFl : F.length ≤ 62) (gt0 : BDD m) (c0 e0 : Nat) (he0 : 0 < e0)
    (hgt0 : ∀ x, gt0.eval x = true ↔ uAt D x * e0 > uAt F x * c0) (n samples : Nat)
    (rs : Nat → Nat → Nat → Nat) : ∀ (fuel j : Nat) (cd res : Nat × Nat),
    LoopInv D F c0 e0 cd.1 cd.2 → randomizedLoopF rnd lg D F gt0 n samples rs fuel j cd = .ok res →
    0 < res.2 ∧ MaxFrac D F res.1 res.2
  | 0, j, cd, res, _, h => by simp [randomizedLoopF] at h
  | fuel + 1, j, cd, res, hinv, h => by
      have hred := hinv.reduce
      obtain ⟨r1, r2, h1, h2, hg⟩ := greaterF_spec hr hl D F gt0 c0 e0 _ _ he0 hgt0 hred
      simp only [randomizedLoopF, h1, h2, bind, Except.bind] at h
      split at h
      · rename_i hz
        rw [BDD.isZero_iff] at hz
        simp only [Except.ok.injEq] at h
        rw [← h, toLong_eq hred.c_lt, toLong_eq hred.e_lt]
        have hle : ∀ x, uAt D x * (cd.2 / cd.1.gcd cd.2) ≤ uAt F x * (cd.1 / cd.1.gcd cd.2) := by
          intro x
          by_contra hc
          have := (hg x).mpr (by omega)
          rw [hz] at this
          simp at this
        refine ⟨hred.e_pos, ?_, hle⟩
        rcases hred.witness with ⟨x, hx⟩ | hx
        · exact absurd (hle x) (by omega)
        · exact hx
      · split at h
        · simp at h
        rename_i cd' hcd'
        have hrch := sampleLoopF_spec D F hF hD hFl _ n (rs j) samples 0 _ cd' hred.c_lt hred.e_pos
          hred.e_lt hcd'
        exact randomizedLoopF_spec hr hl D F hF hD hFl gt0 c0 e0 he0 hgt0 n samples rs fuel (j + 1) cd'
          res (hred.reached hF hD hFl hrch) h

/-- The state in which the main loop is entered. -/
theorem randomizedSearchF_cases (hr : Nearest rnd) (hl : Log2 lg) (D F : List (BDD m))
    (hF : ∀ x, 0 < uAt F x) (hD : D.length ≤ 62)
    (hFl : F.length ≤ 62) (n samples : Nat) (rs : Nat → Nat → Nat → Nat) (fuel : Nat) :
    (∃ c e, randomizedSearchF rnd lg D F n samples rs fuel = .ok (c, e) ∧ 0 < e ∧ MaxFrac D F c e ∧
      ((c = 0 ∧ e = 1) ∨ ∃ k, (c = 2 ^ k ∧ e = 1) ∨ (c = 1 ∧ e = 2 ^ k))) ∨
    (randomizedSearchF rnd lg D F n samples rs fuel = .error .fuel ∧ fuel < 62) ∨
    ∃ c e gt0, 0 < e ∧ (∀ x, gt0.eval x = true ↔ uAt D x * e > uAt F x * c) ∧ LoopInv D F c e c e ∧
      (∃ x, uAt D x * e > uAt F x * c) ∧
      randomizedSearchF rnd lg D F n samples rs fuel = randomizedLoopF rnd lg D F gt0 n samples rs fuel 0 (c, e) := by
  unfold randomizedSearchF
  by_cases hz : D.all (·.isZero) = true
  · rw [if_pos hz]
    rw [all_isZero_iff] at hz
    exact .inl ⟨0, 1, rfl, by norm_num, ⟨⟨fun _ => false, by simp [hz]⟩, by simp [hz]⟩,
      .inl ⟨rfl, rfl⟩⟩
  · rw [if_neg hz]
    rw [all_isZero_iff, not_forall] at hz
    have cont : ∀ s, StartOk D F s →
        (∃ c e, (match s with
          | .inl res => (.ok res : Except Fault (Nat × Nat))
          | .inr (counter, denominator) => do
            let bddDenom ← bddMultiplyConstantF rnd lg D denominator
            let bddCounter ← bddMultiplyConstantF rnd lg F counter
            randomizedLoopF rnd lg D F (greaterThan bddDenom bddCounter) n samples rs fuel 0
              (counter, denominator)) = .ok (c, e) ∧ 0 < e ∧ MaxFrac D F c e ∧
          ((c = 0 ∧ e = 1) ∨ ∃ k, (c = 2 ^ k ∧ e = 1) ∨ (c = 1 ∧ e = 2 ^ k))) ∨
        ∃ c e gt0, 0 < e ∧ (∀ x, gt0.eval x = true ↔ uAt D x * e > uAt F x * c) ∧
          LoopInv D F c e c e ∧ (∃ x, uAt D x * e > uAt F x * c) ∧ (match s with
          | .inl res => (.ok res : Except Fault (Nat × Nat))
          | .inr (counter, denominator) => do
            let bddDenom ← bddMultiplyConstantF rnd lg D denominator
            let bddCounter ← bddMultiplyConstantF rnd lg F counter
            randomizedLoopF rnd lg D F (greaterThan bddDenom bddCounter) n samples rs fuel 0
              (counter, denominator)) = randomizedLoopF rnd lg D F gt0 n samples rs fuel 0 (c, e) := by
      intro s hs
      rcases s with ⟨c, e⟩ | ⟨c, e⟩
      · obtain ⟨h1, h2, h3⟩ := hs
        exact .inl ⟨c, e, rfl, h1, h2, .inr h3⟩
      · obtain ⟨h1, h2, h3, h4, h5⟩ := hs
        obtain ⟨r1, hr1, v1⟩ := mulCF hr hl D e (by omega)
        obtain ⟨r2, hr2, v2⟩ := mulCF hr hl F c (by omega)
        refine .inr ⟨c, e, greaterThan r1 r2, h2, fun x => ?_, ⟨h1, h2, h3, h4, le_rfl, .inl h5⟩, h5,
          by simp only [hr1, hr2, bind, Except.bind]⟩
        rw [greaterThan_eval, decide_eq_true_eq, v1, v2]
    rcases hasGeF_cases hr hl D F 1 1 (by norm_num) (by norm_num) with
        ⟨⟨y, hy⟩, h⟩ | ⟨hle, ⟨⟨y, hy⟩, h⟩ | ⟨hn, h⟩⟩
    · simp only [h, bind, Except.bind, Bool.false_eq_true, if_false, if_true]
      rcases doubleCounterF_spec hr hl D F hF hD fuel 0 ⟨y, by omega⟩ with ⟨h2, h3⟩ | ⟨s, hs, hok⟩
      · rw [pow_zero] at h2
        exact .inr (.inl ⟨by rw [h2], by omega⟩)
      · rw [pow_zero] at hs
        rw [hs]
        rcases cont s hok with h | h
        · exact .inl h
        · exact .inr (.inr h)
    · simp only [h, bind, Except.bind, if_true]
      exact .inl ⟨1, 1, rfl, by norm_num, ⟨⟨y, hy⟩, hle⟩, .inr ⟨0, .inl ⟨by norm_num, rfl⟩⟩⟩
    · simp only [h, bind, Except.bind, Bool.false_eq_true, if_false]
      rcases doubleDenominatorF_spec hr hl D F hF hFl hz fuel 0 (fun x => by
          have h1 := hle x
          have h2 : uAt D x * 1 ≠ uAt F x * 1 := fun h => hn ⟨x, h⟩
          omega) with ⟨h2, h3⟩ | ⟨s, hs, hok⟩
      · rw [pow_zero] at h2
        exact .inr (.inl ⟨by rw [h2], by omega⟩)
      · rw [pow_zero] at hs
        rw [hs]
        rcases cont s hok with h | h
        · exact .inl h
        · exact .inr (.inr h)

theorem randomizedSearchF_sound (hr : Nearest rnd) (hl : Log2 lg) (D F : List (BDD m))
    (hF : ∀ x, 0 < uAt F x) (hD : D.length ≤ 62)
    (hFl : F.length ≤ 62) (n samples : Nat) (rs : Nat → Nat → Nat → Nat) (fuel : Nat)
    (res : Nat × Nat) (h : randomizedSearchF rnd lg D F n samples rs fuel = .ok res) :
    0 < res.2 ∧ MaxFrac D F res.1 res.2 := by
  rcases randomizedSearchF_cases hr hl D F hF hD hFl n samples rs fuel with
    ⟨c, e, h1, h2, h3, _⟩ | ⟨h1, _⟩ | ⟨c, e, gt0, h1, h2, h3, _, h4⟩
  · rw [h1, Except.ok.injEq] at h
    rw [← h]; exact ⟨h2, h3⟩
  · rw [h1] at h; simp at h
  · rw [h4] at h
    exact randomizedLoopF_spec hr hl D F hF hD hFl gt0 c e h1 h2 n samples rs fuel 0 (c, e) res h3 h

/-- Without samples the main loop never ends. -/
theorem randomizedLoopF_no_samples (hr : Nearest rnd) (hl : Log2 lg) (D F : List (BDD m))
    (gt0 : BDD m) (c0 e0 : Nat) (he0 : 0 < e0)
    (hgt0 : ∀ x, gt0.eval x = true ↔ uAt D x * e0 > uAt F x * c0) (n : Nat)
    (rs : Nat → Nat → Nat → Nat) : ∀ (fuel j : Nat) (cd : Nat × Nat),
    LoopInv D F c0 e0 cd.1 cd.2 → (∃ x, uAt D x * cd.2 > uAt F x * cd.1) →
    randomizedLoopF rnd lg D F gt0 n 0 rs fuel j cd = .error .fuel
  | 0, j, cd, _, _ => rfl
  | fuel + 1, j, cd, hinv, ⟨x, hx⟩ => by
      have hred := hinv.reduce
      obtain ⟨r1, r2, h1, h2, hg⟩ := greaterF_spec hr hl D F gt0 c0 e0 _ _ he0 hgt0 hred
      have hx' := (gcd_reduce hinv.c_pos (uAt D x) (uAt F x) (e := cd.2)).mpr hx
      have hnz : (greaterThan r1 r2).isZero = false := BDD.isZero_false_iff.mpr ⟨x, (hg x).mpr hx'⟩
      simp only [randomizedLoopF, h1, h2, bind, Except.bind, hnz, sampleLoopF]
      exact randomizedLoopF_no_samples hr hl D F gt0 c0 e0 he0 hgt0 n rs fuel (j + 1) _ hred ⟨x, hx'⟩

/-- A sample of the set `gr` evaluates without undefined behaviour. -/
theorem sampleF_ok (hr : Nearest rnd) (hm : m.Mono) (D F : List (BDD m))
    (hD : D.length ≤ 62) (hFl : F.length ≤ 62)
    (gr : BDD m) (n : Nat) (hn : n ≤ 1021) (hDN : Fits n D) (hFN : Fits n F) (hgN : Fits n [gr])
    (hgr : ∃ x, gr.eval x = true) (rs : Nat → Nat) (hrs : ∀ i, rs i ≠ 0 ∧ rs i ≤ randMax) :
    ∃ inp, randomSatisfyingInputF rnd gr (countMintermsF rnd gr) n rs = .ok inp ∧
      evalFn D inp = .ok (uAt D (asgOf inp)) ∧ evalFn F inp = .ok (uAt F (asgOf inp)) ∧
      gr.eval (asgOf inp) = true := by
  obtain ⟨l, h1, h2, _, h3⟩ := C88_random_satisfying_input_partial hr hm gr n hgr hgN hn rs
    (fun i => (hrs i).2) (fun i => (hrs i).1)
  exact ⟨l, h1, C16_eval D l (by omega) (h2 ▸ hDN), C16_eval F l (by omega) (h2 ▸ hFN), h3⟩

theorem sampleLoopF_ok (hr : Nearest rnd) (hm : m.Mono) (D F : List (BDD m))
    (hD : D.length ≤ 62) (hFl : F.length ≤ 62)
    (gr : BDD m) (n : Nat) (hn : n ≤ 1021) (hDN : Fits n D) (hFN : Fits n F) (hgN : Fits n [gr])
    (hgr : ∃ x, gr.eval x = true) (rs : Nat → Nat → Nat)
    (hrs : ∀ i k, rs i k ≠ 0 ∧ rs i k ≤ randMax) :
    ∀ (k i : Nat) (cd : Nat × Nat), ∃ cd', sampleLoopF rnd D F gr n rs k i cd = .ok cd'
  | 0, i, cd => ⟨cd, rfl⟩
  | k + 1, i, cd => by
      obtain ⟨inp, h1, h2, h3, _⟩ := sampleF_ok hr hm D F hD hFl gr n hn hDN hFN hgN hgr (rs i) (hrs i)
      simp only [sampleLoopF, h1, h2, h3, bind, Except.bind]
      exact sampleLoopF_ok hr hm D F hD hFl gr n hn hDN hFN hgN hgr rs hrs k (i + 1) _

/-- One or more samples make progress. -/
theorem sampleLoopF_progress (hr : Nearest rnd) (hm : m.Mono) (D F : List (BDD m))
    (hF : ∀ x, 0 < uAt F x)
    (hD : D.length ≤ 62) (hFl : F.length ≤ 62)
    (gr : BDD m) (n : Nat) (hn : n ≤ 1021) (hDN : Fits n D) (hFN : Fits n F) (hgN : Fits n [gr])
    (hgr : ∃ x, gr.eval x = true) (rs : Nat → Nat → Nat)
    (hrs : ∀ i k, rs i k ≠ 0 ∧ rs i k ≤ randMax) (k i : Nat) (cd : Nat × Nat)
    (h1 : cd.1 < 2 ^ 63) (h2 : 0 < cd.2) (h3 : cd.2 < 2 ^ 63)
    (hg : ∀ x, gr.eval x = true → uAt D x * cd.2 > uAt F x * cd.1) :
    ∃ cd', sampleLoopF rnd D F gr n rs (k + 1) i cd = .ok cd' ∧ Reached D F cd cd' ∧ cd' ≠ cd := by
  obtain ⟨cd', hok⟩ := sampleLoopF_ok hr hm D F hD hFl gr n hn hDN hFN hgN hgr rs hrs (k + 1) i cd
  refine ⟨cd', hok, sampleLoopF_spec D F hF hD hFl gr n rs (k + 1) i cd cd' h1 h2 h3 hok, ?_⟩
  obtain ⟨inp, i1, i2, i3, i4⟩ := sampleF_ok hr hm D F hD hFl gr n hn hDN hFN hgN hgr (rs i) (hrs i)
  simp only [sampleLoopF, i1, i2, i3, bind, Except.bind] at hok
  have hgt := hg _ i4
  set x := asgOf inp
  have b1 : uAt D x < 2 ^ 62 := uAt_lt' hD x
  have b2 : uAt F x < 2 ^ 62 := uAt_lt' hFl x
  have u1 : u256 (uAt D x * cd.2) = uAt D x * cd.2 := by
    unfold u256
    apply Nat.mod_eq_of_lt
    calc uAt D x * cd.2 ≤ 2 ^ 62 * 2 ^ 63 := Nat.mul_le_mul (by omega) h3.le
      _ < 2 ^ 256 := by norm_num
  have u2 : u256 (cd.1 * uAt F x) = cd.1 * uAt F x := by
    unfold u256
    apply Nat.mod_eq_of_lt
    calc cd.1 * uAt F x ≤ 2 ^ 63 * 2 ^ 62 := Nat.mul_le_mul h1.le (by omega)
      _ < 2 ^ 256 := by norm_num
  rw [u1, u2, if_pos (by rw [Nat.mul_comm cd.1]; exact hgt)] at hok
  have hr := sampleLoopF_spec D F hF hD hFl gr n rs k (i + 1) _ cd' (by simp only; omega) (hF x)
    (by simp only; omega) hok
  rintro rfl
  rcases hr with he | ⟨_, p2, _⟩
  · rw [he] at hgt
    simp only at hgt
    rw [Nat.mul_comm] at hgt
    omega
  · simp only at p2
    rw [Nat.mul_comm (uAt F x)] at hgt
    omega

theorem randomizedLoopF_terminates (hr : Nearest rnd) (hl : Log2 lg) (hm : m.Mono) (D F : List (BDD m))
    (hF : ∀ x, 0 < uAt F x)
    (hD : D.length ≤ 62) (hFl : F.length ≤ 62) (gt0 : BDD m) (c0 e0 : Nat) (he0 : 0 < e0)
    (hgt0 : ∀ x, gt0.eval x = true ↔ uAt D x * e0 > uAt F x * c0) (n samples : Nat)
    (hn : n ≤ 1021) (hDN : Fits n D) (hFN : Fits n F) (rs : Nat → Nat → Nat → Nat)
    (hrs : ∀ j i k, rs j i k ≠ 0 ∧ rs j i k ≤ randMax) : ∀ (fuel j : Nat) (cd : Nat × Nat),
    LoopInv D F c0 e0 cd.1 cd.2 → (above D F n cd.1 cd.2).card < fuel →
    ∃ res, randomizedLoopF rnd lg D F gt0 n (samples + 1) rs fuel j cd = .ok res
  | 0, j, cd, _, h => by simp at h
  | fuel + 1, j, cd, hinv, hcard => by
      have hred := hinv.reduce
      obtain ⟨r1, r2, h1, h2, hg⟩ := greaterF_spec hr hl D F gt0 c0 e0 _ _ he0 hgt0 hred
      simp only [randomizedLoopF, h1, h2, bind, Except.bind]
      split
      · exact ⟨_, rfl⟩
      · rename_i hz
        rw [Bool.not_eq_true, BDD.isZero_false_iff] at hz
        have hgN : Fits n [greaterThan r1 r2] := by
          apply fits_of_eval'
          intro x y hxy
          apply Bool.eq_iff_iff.mpr
          rw [hg, hg, uAt_agree hDN hxy, uAt_agree hFN hxy]
        set c := cd.1 / cd.1.gcd cd.2 with hc
        set e := cd.2 / cd.1.gcd cd.2 with he
        obtain ⟨cd', hok, hrch, hne⟩ := sampleLoopF_progress hr hm D F hF hD hFl (greaterThan r1 r2) n hn hDN
          hFN hgN hz (rs j) (hrs j) samples 0 (c, e) hred.c_lt hred.e_pos hred.e_lt
          (fun x hx => (hg x).mp hx)
        rw [hok]
        simp only
        refine randomizedLoopF_terminates hr hl hm D F hF hD hFl gt0 c0 e0 he0 hgt0 n samples hn hDN hFN rs hrs
          fuel (j + 1) cd' (LoopInv.reached (cd := (c, e)) hred hF hD hFl hrch) ?_
        refine lt_of_lt_of_le (Finset.card_lt_card ?_) (Nat.lt_succ_iff.mp hcard)
        rcases hrch with h | ⟨p1, p2, y, hy⟩
        · exact absurd h hne
        simp only at p2
        have hsub : ∀ x, uAt D x * cd'.2 > uAt F x * cd'.1 → uAt D x * cd.2 > uAt F x * cd.1 := by
          intro x hx
          rw [← gcd_reduce hinv.c_pos, ← hc, ← he]
          have hcp : 0 < cd'.2 := by rw [hy]; exact hF y
          have q : (uAt F x * c) * cd'.2 < (uAt D x * e) * cd'.2 := by
            calc (uAt F x * c) * cd'.2 = uAt F x * (c * cd'.2) := by ring
              _ ≤ uAt F x * (cd'.1 * e) := Nat.mul_le_mul_left _ p2.le
              _ = (uAt F x * cd'.1) * e := by ring
              _ < (uAt D x * cd'.2) * e := Nat.mul_lt_mul_of_pos_right hx hred.e_pos
              _ = _ := by ring
          exact lt_of_mul_lt_mul_right q (Nat.zero_le _)
        have y1 : uAt D (ext (fun i : Fin n => y i)) = uAt D y :=
          uAt_agree hDN (fun v hv => ext_agree y hv)
        have y2 : uAt F (ext (fun i : Fin n => y i)) = uAt F y :=
          uAt_agree hFN (fun v hv => ext_agree y hv)
        rw [Finset.ssubset_iff_of_subset]
        · refine ⟨fun i => y i, ?_, ?_⟩
          · simp only [above, Finset.mem_filter, Finset.mem_univ, true_and]
            rw [y1, y2, ← gcd_reduce hinv.c_pos, ← hc, ← he]
            rw [hy] at p2
            simp only at p2
            rw [Nat.mul_comm (uAt F y)]
            exact p2
          · simp only [above, Finset.mem_filter, Finset.mem_univ, true_and]
            rw [y1, y2, hy]
            simp only
            rw [Nat.mul_comm]
            omega
        · intro a ha
          simp only [above, Finset.mem_filter, Finset.mem_univ, true_and] at ha ⊢
          exact hsub _ ha

theorem randomizedSearchF_terminates (hr : Nearest rnd) (hl : Log2 lg) (hm : m.Mono) (D F : List (BDD m))
    (hF : ∀ x, 0 < uAt F x)
    (hD : D.length ≤ 62) (hFl : F.length ≤ 62) (n samples : Nat)
    (hn : n ≤ 1021) (hDN : Fits n D) (hFN : Fits n F) (rs : Nat → Nat → Nat → Nat)
    (hrs : ∀ j i k, rs j i k ≠ 0 ∧ rs j i k ≤ randMax) (fuel : Nat) (hfuel : 2 ^ n + 62 ≤ fuel) :
    ∃ res, randomizedSearchF rnd lg D F n (samples + 1) rs fuel = .ok res := by
  rcases randomizedSearchF_cases hr hl D F hF hD hFl n (samples + 1) rs fuel with
    ⟨c, e, h1, _⟩ | ⟨_, h⟩ | ⟨c, e, gt0, h1, h2, h3, _, h4⟩
  · exact ⟨_, h1⟩
  · have := Nat.two_pow_pos n
    omega
  · rw [h4]
    apply randomizedLoopF_terminates hr hl hm D F hF hD hFl gt0 c e h1 h2 n samples hn hDN hFN rs hrs fuel 0 _ h3
    have : (above D F n c e).card ≤ 2 ^ n := by
      refine le_trans (Finset.card_le_univ _) ?_
      simp
    simp only
    omega

theorem randomizedSearchF_no_samples (hr : Nearest rnd) (hl : Log2 lg) (D F : List (BDD m))
    (hF : ∀ x, 0 < uAt F x)
    (hD : D.length ≤ 62) (hFl : F.length ≤ 62) (n : Nat) (rs : Nat → Nat → Nat → Nat) (fuel : Nat) :
    randomizedSearchF rnd lg D F n 0 rs fuel = .error .fuel ∨
    ∃ c e, randomizedSearchF rnd lg D F n 0 rs fuel = .ok (c, e) ∧
      ((c = 0 ∧ e = 1) ∨ ∃ k, (c = 2 ^ k ∧ e = 1) ∨ (c = 1 ∧ e = 2 ^ k)) := by
  rcases randomizedSearchF_cases hr hl D F hF hD hFl n 0 rs fuel with
    ⟨c, e, h1, _, _, h2⟩ | ⟨h, _⟩ | ⟨c, e, gt0, h1, h2, h3, h5, h4⟩
  · exact .inr ⟨c, e, h1, h2⟩
  · exact .inl h
  · left
    rw [h4]
    exact randomizedLoopF_no_samples hr hl D F gt0 c e h1 h2 n rs fuel 0 (c, e) h3 h5

/-! ## `wcre_search` -/

theorem existsGreaterEquals_congr (d : List (BDD m)) {r r' : List (BDD m)} (h : ∀ x, uAt r x = uAt r' x) :
    existsGreaterEquals d r = existsGreaterEquals d r' := by
  have h1 := existsGreaterEquals_cases d r
  have h2 := existsGreaterEquals_cases d r'
  simp only [h] at h1
  rcases h1 with ⟨a1, b1⟩ | ⟨a1, ⟨b1, c1⟩ | ⟨b1, c1⟩⟩ <;> rcases h2 with ⟨a2, b2⟩ | ⟨a2, ⟨b2, c2⟩ | ⟨b2, c2⟩⟩
  · rw [b1, b2]
  · obtain ⟨x, hx⟩ := a1; have := a2 x; omega
  · obtain ⟨x, hx⟩ := a1; have := a2 x; omega
  · obtain ⟨x, hx⟩ := a2; have := a1 x; omega
  · rw [c1, c2]
  · exact absurd b1 b2
  · obtain ⟨x, hx⟩ := a2; have := a1 x; omega
  · exact absurd b2 b1
  · rw [c1, c2]

theorem greaterThan_congr (d : List (BDD m)) {r r' : List (BDD m)} (h : ∀ x, uAt r x = uAt r' x) :
    greaterThan d r = greaterThan d r' :=
  BDD.ext_eval fun x => by rw [greaterThan_eval, greaterThan_eval, h]

/-- The powers of two are exact. -/
theorem factorLoopF_eq (hr : Nearest rnd) (hl : Log2 lg) (D F : List (BDD m)) : ∀ (n k : Nat), n + k = 128 →
    factorLoopF rnd lg D F n k = factorLoop D F n k
  | 0, k, _ => rfl
  | n + 1, k, hn => by
      have hlt : ∀ j : Nat, j ≤ 127 → (2 : ℚ) ^ j < 2 ^ 256 := fun j hj => pow_lt_pow_right₀ (by norm_num) (by omega)
      obtain ⟨r, r', h1, h2, -, hv⟩ := mulQF hr hl F (2 ^ k) 16 (isDouble_two_pow (by omega))
        (one_le_pow₀ (by norm_num)) (hlt k (by omega)) (by norm_num)
      unfold factorLoopF factorLoop
      simp only [h1, h2, bind, Except.bind, existsGreaterEquals_congr D hv, factorLoopF_eq hr hl D F n (k + 1) (by omega)]
      by_cases hk : k = 0
      · subst hk; simp
      · obtain ⟨j, rfl⟩ : ∃ j, k = j + 1 := ⟨k - 1, by omega⟩
        have hj : (2 : ℚ) ^ (j + 1) / 2 = 2 ^ j := by rw [pow_succ]; ring
        obtain ⟨a, a', g1, g2, -, gv⟩ := mulQF hr hl F (2 ^ j) 16 (isDouble_two_pow (by omega))
          (one_le_pow₀ (by norm_num)) (hlt j (by omega)) (by norm_num)
        simp only [hj, g1, g2, greaterThan_congr D gv]

theorem isDouble_grid {q : ℚ} {s : Nat} {k : ℤ} (h : q * 2 ^ s = k) (h0 : 0 ≤ q) (hs : s ≤ 1074) (hb : q * 2 ^ s ≤ 2 ^ 53) :
    IsDouble q := by
  have hp : (0 : ℚ) < 2 ^ s := by positivity
  have hk0 : (0 : ℚ) ≤ k := by rw [← h]; exact mul_nonneg h0 hp.le
  have := isDouble_div k s (by
    rw [abs_of_nonneg (by exact_mod_cast hk0)]
    rw [h] at hb
    exact_mod_cast hb) hs
  rwa [← h, mul_div_assoc, div_self hp.ne', mul_one] at this

/-- As long as all numbers of the bisection are `double`s, it is the exact one. -/
theorem bisectLoopF_eq (hr : Nearest rnd) (hl : Log2 lg) (D F : List (BDD m)) (s : Nat) (hs : s ≤ 52) (precision : ℚ)
    (hp : 1 / 2 ^ s ≤ precision) : ∀ (fuel t : Nat) (lo hi : ℚ) (gt : BDD m), (hi - lo) * 2 ^ s = 2 ^ t →
    (∃ k : ℤ, lo * 2 ^ s = k) → 1 ≤ lo → hi * 2 ^ s ≤ 2 ^ 52 →
    bisectLoopF rnd lg D F precision fuel lo hi gt = bisectLoop D F precision fuel lo hi gt
  | 0, _, _, _, _, _, _, _, _ => rfl
  | fuel + 1, t, lo, hi, gt, hgap, ⟨kl, hkl⟩, hlo, hhi => by
      have hps : (0 : ℚ) < 2 ^ s := by positivity
      have hpt : (0 : ℚ) < 2 ^ t := by positivity
      have hs1 : (1 : ℚ) ≤ 2 ^ s := one_le_pow₀ (by norm_num)
      have hlh : lo < hi := by
        by_contra hc
        have : (hi - lo) * 2 ^ s ≤ 0 := mul_nonpos_of_nonpos_of_nonneg (by linarith) hps.le
        linarith
      have hgap' : hi * 2 ^ s = kl + 2 ^ t := by rw [← hkl, ← hgap]; ring
      have hhi0 : 0 < hi := by linarith
      have hbig : ∀ z : ℚ, 0 ≤ z → z * 2 ^ s ≤ 2 ^ 53 → |z| ≤ 2 ^ 1023 := fun z h0 h1 => by
        rw [abs_of_nonneg h0]
        have : z ≤ z * 2 ^ s := le_mul_of_one_le_right h0 hs1
        exact (this.trans h1).trans (two_pow_le_big (by norm_num))
      have h253 : (2 : ℚ) ^ 53 = 2 * 2 ^ 52 := by norm_num
      have e1 : rnd (hi - lo) = hi - lo := by
        have hk : (hi - lo) * 2 ^ s = ((2 ^ t : ℤ) : ℚ) := by rw [hgap]; push_cast; rfl
        have hb : (hi - lo) * 2 ^ s ≤ 2 ^ 53 := by
          have := mul_nonneg (by linarith : 0 ≤ lo) hps.le
          rw [sub_mul]; linarith
        exact hr.exact (isDouble_grid hk (by linarith) (by omega) hb) (hbig _ (by linarith) hb)
      have hsum : (lo + hi) * 2 ^ s = ((kl + kl + 2 ^ t : ℤ) : ℚ) := by push_cast; rw [add_mul, hkl, hgap']; ring
      have hsb : (lo + hi) * 2 ^ s ≤ 2 ^ 53 := by
        have := mul_le_mul_of_nonneg_right hlh.le hps.le
        rw [add_mul]; linarith
      have hsd : IsDouble (lo + hi) := isDouble_grid hsum (by linarith) (by omega) hsb
      have e2 : rnd (lo + hi) = lo + hi := hr.exact hsd (hbig _ (by linarith) hsb)
      have hmd : IsDouble ((lo + hi) / 2) := by
        refine isDouble_half hsd ?_
        have h1 : (1 : ℚ) / 2 ^ 1021 ≤ 1 := by
          rw [div_le_one (by positivity)]
          exact one_le_pow₀ (by norm_num)
        exact h1.trans (by linarith)
      have e3 : rnd ((lo + hi) / 2) = (lo + hi) / 2 := hr.exact hmd (hbig _ (by linarith) (by
        have : (lo + hi) / 2 * 2 ^ s = (lo + hi) * 2 ^ s / 2 := by ring
        rw [this]; linarith))
      unfold bisectLoopF bisectLoop
      rw [e1, e2, e3]
      split
      · rename_i hc
        obtain ⟨u, rfl⟩ : ∃ u, t = u + 1 := by
          rcases Nat.eq_zero_or_pos t with rfl | h
          · rw [pow_zero] at hgap
            have : hi - lo = 1 / 2 ^ s := by rw [eq_div_iff hps.ne', hgap]
            rw [this] at hc
            exact absurd hp (by linarith)
          · exact ⟨t - 1, by omega⟩
        set mid := (lo + hi) / 2 with hmid
        have hm1 : 1 ≤ mid := by rw [hmid]; linarith
        have hm2 : mid < 2 ^ 256 := by
          have h1 : hi ≤ 2 ^ 52 := (le_mul_of_one_le_right hhi0.le hs1).trans hhi
          have h2 : (2 : ℚ) ^ 52 < 2 ^ 256 := pow_lt_pow_right₀ (by norm_num) (by norm_num)
          rw [hmid]; linarith
        have g1 : (hi - mid) * 2 ^ s = 2 ^ u := by
          rw [hmid]; rw [pow_succ] at hgap; linarith
        have g2 : (mid - lo) * 2 ^ s = 2 ^ u := by
          rw [hmid]; rw [pow_succ] at hgap; linarith
        have g3 : mid * 2 ^ s = ((kl + 2 ^ u : ℤ) : ℚ) := by push_cast; rw [← hkl, ← g2]; ring
        have g4 : mid * 2 ^ s ≤ 2 ^ 52 := le_trans (mul_le_mul_of_nonneg_right (by rw [hmid]; linarith) hps.le) hhi
        obtain ⟨r, r', h1, h2, -, hv⟩ := mulQF hr hl (F.map (·.and gt)) mid 16 hmd hm1 hm2 (by norm_num)
        simp only [h1, h2, bind, Except.bind, existsGreaterEquals_congr _ hv, greaterThan_congr _ hv]
        rw [bisectLoopF_eq hr hl D F s hs precision hp fuel u mid hi _ g1 ⟨_, g3⟩ hm1 hhi,
          bisectLoopF_eq hr hl D F s hs precision hp fuel u lo mid _ g2 ⟨kl, hkl⟩ hlo g4]
      · rfl

/-- For quotients up to `2 ^ (52 - s)` and a precision of at least `2 ^ -s` there is no rounding. -/
theorem relativeSearchF_eq (hr : Nearest rnd) (hl : Log2 lg) (D F : List (BDD m)) (hF : ∀ x, 0 < uAt F x)
    (k s : Nat) (hs : s ≤ 52) (precision : ℚ) (hp : 1 / 2 ^ s ≤ precision)
    (hb : ∀ x, uAt D x ≤ uAt F x * 2 ^ (52 - s)) (fuel : Nat) :
    relativeSearchF rnd lg D F k precision fuel = relativeSearch D F k precision fuel := by
  unfold relativeSearchF relativeSearch
  split
  · rfl
  have hF' : ∀ x, 0 < uAt (List.replicate k BDD.zero ++ F) x := fun x => by
    rw [uAt_shifted]; exact Nat.mul_pos (hF x) (by positivity)
  have hb' : ∀ x, uAt (List.replicate k BDD.zero ++ D) x ≤ uAt (List.replicate k BDD.zero ++ F) x * 2 ^ (52 - s) :=
    fun x => by
      rw [uAt_shifted, uAt_shifted]
      have := Nat.mul_le_mul_right (2 ^ k) (hb x)
      rwa [Nat.mul_right_comm] at this
  simp only
  set D' := List.replicate k BDD.zero ++ D
  set F' := List.replicate k BDD.zero ++ F
  rw [factorLoopF_eq hr hl D' F' 128 0 rfl]
  have hb127 : ∀ x, uAt D' x < uAt F' x * 2 ^ 127 := fun x =>
    lt_of_le_of_lt (hb' x) (Nat.mul_lt_mul_of_pos_left (Nat.pow_lt_pow_right (by norm_num) (by omega)) (hF' x))
  rcases factorLoop_spec D' F' hF' hb127 128 0 rfl (fun j hj => by omega) with
    ⟨j, h, -⟩ | ⟨-, h, -⟩ | ⟨j, gt, hj, h, hgt, ⟨x, hx⟩, -⟩
  · simp only [h, bind, Except.bind]
  · simp only [h, bind, Except.bind]
    cases fuel with
    | zero => rfl
    | succ fuel =>
      have e1 : rnd 1 = 1 := hr.exact' isDouble_one (by norm_num) (by norm_num)
      have e2 : rnd (1 / 2) = 1 / 2 := hr.exact' (by simpa using isDouble_nat_div 1 1 (by norm_num) (by norm_num))
        (by norm_num) (by norm_num)
      have hlg : ⌈lg (1 / 2)⌉ < 0 := by
        have := hl.le (1 / 2) (-1) (by norm_num) (by norm_num)
        have h2 : ⌈lg (1 / 2)⌉ ≤ -1 := Int.ceil_le.mpr this
        omega
      have q1 : ∀ f : List (BDD m), bddMultiplyConstantQF rnd lg f (1 / 2) 16 = .error .ub := fun f => by
        unfold bddMultiplyConstantQF
        rw [if_neg (by norm_num), if_pos hlg]
      have q2 : ∀ f : List (BDD m), bddMultiplyConstantQ f (1 / 2) 16 = .error .ub := fun f => by
        unfold bddMultiplyConstantQ
        rw [if_pos (le_refl _)]
      unfold bisectLoopF bisectLoop
      rw [sub_zero, zero_add, e1, e2]
      split
      · simp only [q1, q2, bind, Except.bind]
      · rfl
  · simp only [h, bind, Except.bind]
    have hjs : j < 52 - s := by
      have h1 := (hgt x).mp hx
      have h2 := lt_of_lt_of_le h1 (hb' x)
      exact (Nat.pow_lt_pow_iff_right (by norm_num : 1 < 2)).mp (lt_of_mul_lt_mul_left h2 (Nat.zero_le _))
    refine bisectLoopF_eq hr hl D' F' s hs precision hp fuel (j + s) (2 ^ j) (2 ^ (j + 1)) gt
      (by rw [pow_succ, pow_add]; ring) ⟨2 ^ j * 2 ^ s, by push_cast; ring⟩ (one_le_pow₀ (by norm_num)) ?_
    rw [← pow_add]
    exact pow_le_pow_right₀ (by norm_num) (by omega)

/-- A `double` between powers of two is a multiple of the unit. -/
theorem IsDouble.unit {y : ℚ} (hy : IsDouble y) {j : Nat} (h : 2 ^ j ≤ y) : ∃ a : ℤ, y * 2 ^ 52 = a * 2 ^ j := by
  rcases h.eq_or_lt with h | h
  · exact ⟨2 ^ 52, by rw [← h]; push_cast; ring⟩
  · obtain ⟨a, ha⟩ := hy.spacing (t := j) (by rwa [zpow_natCast])
    refine ⟨a, ?_⟩
    have h52 : (2 : ℚ) ^ (j : ℤ) = 2 ^ ((j : ℤ) - 52) * 2 ^ 52 := by
      rw [← zpow_natCast 2 52, ← zpow_add₀ (by norm_num)]; congr 1; push_cast; ring
    rw [ha, ← zpow_natCast 2 j, h52]
    ring

theorem isDouble_twice {q : ℚ} (hq : IsDouble q) (h0 : 0 < q) (hb : q ≤ 2 ^ 900) : IsDouble (q * 2) := by
  obtain ⟨k, e, hk, h1, h2, rfl⟩ := hq
  have he : e ≤ 900 := by
    by_contra hc
    have hp : (0 : ℚ) < 2 ^ e := zpow_pos (by norm_num) e
    have hk0 : (0 : ℚ) < k := pos_of_mul_pos_left h0 hp.le
    have hk1 : (1 : ℚ) ≤ k := by
      have : (0 : ℤ) < k := by exact_mod_cast hk0
      exact_mod_cast this
    have h3 : (2 : ℚ) ^ (900 : ℤ) < 2 ^ e := (zpow_lt_zpow_iff_right₀ (by norm_num)).mpr (by omega)
    have h4 : (2 : ℚ) ^ e ≤ k * 2 ^ e := le_mul_of_one_le_left hp.le hk1
    have h5 : (2 : ℚ) ^ (900 : ℤ) = 2 ^ 900 := by
      rw [← zpow_natCast]; rfl
    rw [h5] at h3
    exact absurd hb (not_le.mpr (h3.trans_le h4))
  exact ⟨k, e + 1, hk, by omega, by omega, by rw [zpow_add_one₀ (by norm_num)]; ring⟩

/-- If all quotients are the same number and that is not a `double`, the bisection never gets below the distance of
neighbouring `double`s. -/
theorem bisectLoopF_hang (hr : Nearest rnd) (hl : Log2 lg) (D F : List (BDD m)) (hF : ∀ x, 0 < uAt F x)
    (hd : ∀ x, 2 ^ 16 ∣ uAt F x) (w : ℚ) (hw : ∀ x, (uAt D x : ℚ) = uAt F x * w) (hnd : ¬ IsDouble w) (j : Nat)
    (hj : 36 ≤ j) (hj2 : j ≤ 126) (precision : ℚ) (hp : precision < 2 ^ j / 2 ^ 52) :
    ∀ (fuel : Nat) (lo hi : ℚ) (gt : BDD m), IsDouble lo → IsDouble hi → 2 ^ j ≤ lo → lo < w → w < hi →
    hi ≤ 2 ^ (j + 1) → (∀ x, gt.eval x = true) → bisectLoopF rnd lg D F precision fuel lo hi gt = .error .fuel
  | 0, _, _, _, _, _, _, _, _, _, _ => rfl
  | fuel + 1, lo, hi, gt, hdl, hdh, hlo, hlw, hwh, hhi, hgt => by
      have hpj : (0 : ℚ) < 2 ^ j := by positivity
      have hp52 : (0 : ℚ) < 2 ^ 52 := by positivity
      have hj1 : (1 : ℚ) ≤ 2 ^ j := one_le_pow₀ (by norm_num)
      have hlo0 : 0 < lo := by linarith
      have big : ∀ z, z ≤ hi * 2 → z ≤ (2 : ℚ) ^ 1023 := fun z hz => by
        refine hz.trans ((by linarith only [hhi] : hi * 2 ≤ 2 ^ (j + 1) * 2).trans ?_)
        rw [← pow_succ]; exact two_pow_le_big (by omega)
      have b900 : ∀ z, z ≤ (2 : ℚ) ^ (j + 1) → z ≤ 2 ^ 900 := fun z hz => hz.trans (two_pow_le_big (by omega))
      obtain ⟨a, ha⟩ := hdh.unit (j := j) (by linarith)
      obtain ⟨b, hb⟩ := hdl.unit hlo
      have hgap : (2 : ℚ) ^ j / 2 ^ 52 ≤ hi - lo := by
        rw [div_le_iff₀ hp52, sub_mul, ha, hb, ← sub_mul]
        have h1 : (0 : ℚ) < (a - b) * 2 ^ j := by
          rw [sub_mul, ← ha, ← hb, ← sub_mul]
          exact mul_pos (by linarith) hp52
        have h2 : (0 : ℚ) < a - b := pos_of_mul_pos_left h1 hpj.le
        have h3 : (0 : ℤ) < a - b := by exact_mod_cast h2
        have h4 : (1 : ℚ) ≤ a - b := by exact_mod_cast h3
        exact le_mul_of_one_le_left hpj.le h4
      have hunit : IsDouble ((2 : ℚ) ^ j / 2 ^ 52) := isDouble_div_pow (isDouble_two_pow (by omega)) 52 (.inr (by
        rw [div_le_div_iff₀ (by positivity) hp52, one_mul, ← pow_add]
        exact two_pow_le_big (by omega)))
      have hcond : precision < rnd (hi - lo) :=
        lt_of_lt_of_le hp (hr.double_le (by linarith) hunit hgap (big _ (by linarith)))
      have hdl2 : IsDouble (lo * 2) := isDouble_twice hdl (by linarith) (b900 _ (by linarith))
      have hdh2 : IsDouble (hi * 2) := isDouble_twice hdh (by linarith) (b900 _ hhi)
      have s1 : lo * 2 ≤ rnd (lo + hi) := hr.double_le (by linarith) hdl2 (by linarith) (big _ (by linarith))
      have s2 : rnd (lo + hi) ≤ hi * 2 := hr.le_double (by linarith) hdh2 (by linarith) (big _ (by linarith))
      have s3 : lo ≤ rnd (rnd (lo + hi) / 2) := hr.double_le (by linarith) hdl (by linarith) (big _ (by linarith))
      have s4 : rnd (rnd (lo + hi) / 2) ≤ hi := hr.le_double (by linarith) hdh (by linarith) (big _ (by linarith))
      have hmd : IsDouble (rnd (rnd (lo + hi) / 2)) := hr.isDouble _ (by
        rw [abs_of_nonneg (by linarith)]; exact big _ (by linarith))
      unfold bisectLoopF
      rw [if_pos hcond]
      set mid := rnd (rnd (lo + hi) / 2) with hmid
      have hne : mid ≠ w := fun h => hnd (h ▸ hmd)
      obtain ⟨c, hc⟩ := hmd.unit (hlo.trans s3)
      have hk : ∃ k : ℤ, mid * 2 ^ 16 = k := by
        refine ⟨c * 2 ^ (j - 36), ?_⟩
        have h1 : (2 : ℚ) ^ j = 2 ^ (j - 36) * 2 ^ 36 := by rw [← pow_add]; congr 1; omega
        rw [h1] at hc
        push_cast
        linarith
      have hm1 : 1 ≤ mid := by linarith
      have hm2 : mid < 2 ^ 256 := by
        have : (2 : ℚ) ^ (j + 1) < 2 ^ 256 := pow_lt_pow_right₀ (by norm_num) (by omega)
        linarith
      have hdm : ∀ x, 2 ^ 16 ∣ uAt (F.map (·.and gt)) x := fun x => by
        rw [uAt_masked, if_pos (hgt x)]; exact hd x
      obtain ⟨r, r', h1, h2, -, hv⟩ := mulQF hr hl (F.map (·.and gt)) mid 16 hmd hm1 hm2 (by norm_num)
      obtain ⟨r'', h3, hv'⟩ := mulQ_frac (F.map (·.and gt)) mid (by linarith) hm2 hk hdm
      obtain rfl : r' = r'' := by rw [h2] at h3; exact Except.ok.inj h3
      have hrv : ∀ x, (uAt r x : ℚ) = uAt F x * mid := fun x => by
        rw [hv, hv', uAt_masked, if_pos (hgt x)]
      have hDv : ∀ x, (uAt (D.map (·.and gt)) x : ℚ) = uAt F x * w := fun x => by
        rw [uAt_masked, if_pos (hgt x), hw]
      have hFp : ∀ x, (0 : ℚ) < uAt F x := fun x => by exact_mod_cast hF x
      simp only [h1, bind, Except.bind]
      rcases lt_or_gt_of_ne hne with hlt | hlt
      · have hall : ∀ x, uAt (D.map (·.and gt)) x > uAt r x := fun x => by
          rw [gt_iff_lt, ← Nat.cast_lt (α := ℚ), hrv, hDv]
          exact mul_lt_mul_of_pos_left hlt (hFp x)
        have hge : existsGreaterEquals (D.map (·.and gt)) r = (true, false) := by
          rcases existsGreaterEquals_cases (D.map (·.and gt)) r with ⟨-, h⟩ | ⟨hle, -⟩
          · exact h
          · have := hle (fun _ => false); have := hall (fun _ => false); omega
        simp only [hge, Bool.false_eq_true, if_false, if_true]
        exact bisectLoopF_hang hr hl D F hF hd w hw hnd j hj hj2 precision hp fuel mid hi _ hmd hdh (hlo.trans s3) hlt
          hwh hhi (fun x => by rw [greaterThan_eval, decide_eq_true_eq]; exact hall x)
      · have hall : ∀ x, uAt (D.map (·.and gt)) x < uAt r x := fun x => by
          rw [← Nat.cast_lt (α := ℚ), hrv, hDv]
          exact mul_lt_mul_of_pos_left hlt (hFp x)
        have hge : existsGreaterEquals (D.map (·.and gt)) r = (false, false) := by
          rcases existsGreaterEquals_cases (D.map (·.and gt)) r with ⟨⟨x, hx⟩, -⟩ | ⟨-, ⟨⟨x, hx⟩, -⟩ | ⟨-, h⟩⟩
          · have := hall x; omega
          · have := hall x; omega
          · exact h
        simp only [hge, Bool.false_eq_true, if_false]
        exact bisectLoopF_hang hr hl D F hF hd w hw hnd j hj hj2 precision hp fuel lo mid gt hdl hmd hlo hlw hlt
          (s4.trans hhi) hgt

theorem relativeSearchF_hang (hr : Nearest rnd) (hl : Log2 lg) (D F : List (BDD m)) (hF : ∀ x, 0 < uAt F x)
    (k : Nat) (hk : 16 ≤ k) (w : ℚ) (hw : ∀ x, (uAt D x : ℚ) = uAt F x * w) (hnd : ¬ IsDouble w) (t : Nat)
    (ht : 36 ≤ t) (hw1 : 2 ^ t < w) (hw2 : w < 2 ^ 127) (precision : ℚ) (hp : precision < 2 ^ t / 2 ^ 52) (fuel : Nat) :
    relativeSearchF rnd lg D F k precision fuel = .error .fuel := by
  unfold relativeSearchF
  have hFp : ∀ x, (0 : ℚ) < uAt F x := fun x => by exact_mod_cast hF x
  have hpt : (0 : ℚ) < 2 ^ t := by positivity
  rw [if_neg (by
    rw [all_isZero_iff]
    intro h
    have h1 := hw (fun _ => false)
    rw [h] at h1
    have h2 := mul_pos (hFp (fun _ => false)) (by linarith : 0 < w)
    push_cast at h1
    linarith)]
  have hF' : ∀ x, 0 < uAt (List.replicate k BDD.zero ++ F) x := fun x => by
    rw [uAt_shifted]; exact Nat.mul_pos (hF x) (by positivity)
  have hw' : ∀ x, (uAt (List.replicate k BDD.zero ++ D) x : ℚ) = uAt (List.replicate k BDD.zero ++ F) x * w :=
    fun x => by
      rw [uAt_shifted, uAt_shifted]
      push_cast
      rw [hw x]; ring
  have hd : ∀ x, 2 ^ 16 ∣ uAt (List.replicate k BDD.zero ++ F) x := fun x => by
    rw [uAt_shifted]
    exact Dvd.dvd.mul_left (pow_dvd_pow 2 hk) _
  simp only
  set D' := List.replicate k BDD.zero ++ D
  set F' := List.replicate k BDD.zero ++ F
  have hFp' : ∀ x, (0 : ℚ) < uAt F' x := fun x => by exact_mod_cast hF' x
  rw [factorLoopF_eq hr hl D' F' 128 0 rfl]
  have hb127 : ∀ x, uAt D' x < uAt F' x * 2 ^ 127 := fun x => by
    rw [← Nat.cast_lt (α := ℚ), hw']
    push_cast
    exact mul_lt_mul_of_pos_left hw2 (hFp' x)
  rcases factorLoop_spec D' F' hF' hb127 128 0 rfl (fun j hj => by omega) with
    ⟨j, h, ⟨x, hx⟩, -⟩ | ⟨-, h, hlt⟩ | ⟨j, gt, hj, h, hgt, ⟨x, hx⟩, hlt⟩
  · exfalso
    have h1 : (uAt D' x : ℚ) = uAt F' x * 2 ^ j := by
      rw [Nat.mul_one] at hx
      exact_mod_cast hx
    rw [hw'] at h1
    have h2 : w = 2 ^ j := mul_left_cancel₀ (hFp' x).ne' h1
    have h3 : j < 127 := by
      rw [h2] at hw2
      exact (pow_lt_pow_iff_right₀ (by norm_num)).mp hw2
    exact hnd (h2 ▸ isDouble_two_pow (by omega))
  · exfalso
    have h1 := hlt (fun _ => false)
    rw [← Nat.cast_lt (α := ℚ), hw'] at h1
    have h2 : (1 : ℚ) ≤ 2 ^ t := one_le_pow₀ (by norm_num)
    have h3 := mul_lt_mul_of_pos_left (lt_of_le_of_lt h2 hw1) (hFp' (fun _ => false))
    linarith
  · simp only [h, bind, Except.bind]
    have hjw : (2 : ℚ) ^ j < w := by
      have h1 := (hgt x).mp hx
      rw [gt_iff_lt, ← Nat.cast_lt (α := ℚ), hw'] at h1
      push_cast at h1
      exact lt_of_mul_lt_mul_left h1 (hFp' x).le
    have hwj : w < 2 ^ (j + 1) := by
      have h1 := hlt x
      rw [← Nat.cast_lt (α := ℚ), hw'] at h1
      push_cast at h1
      exact lt_of_mul_lt_mul_left h1 (hFp' x).le
    have htj : t ≤ j := by
      have : (2 : ℚ) ^ t < 2 ^ (j + 1) := by linarith
      have := (pow_lt_pow_iff_right₀ (by norm_num : (1 : ℚ) < 2)).mp this
      omega
    refine bisectLoopF_hang hr hl D' F' hF' hd w hw' hnd j (by omega) (by omega) precision ?_ fuel _ _ gt
      (isDouble_two_pow (by omega)) (isDouble_two_pow (by omega)) le_rfl hjw hwj le_rfl (fun y => ?_)
    · refine lt_of_lt_of_le hp ?_
      exact div_le_div_of_nonneg_right (two_pow_le_big htj) (by positivity)
    · rw [hgt, gt_iff_lt, ← Nat.cast_lt (α := ℚ), hw']
      push_cast
      exact mul_lt_mul_of_pos_left hjw (hFp' y)

/-! ## Rounding of quotients -/

theorem near_dec (hd : Dec100 dec) {a μ α : ℚ} (hμ : 0 ≤ μ) (hα : α ≤ 1) (h : |a - μ| ≤ α * μ) :
    |dec a - μ| ≤ (α + 2 / 10 ^ 99) * μ ∧ 0 ≤ dec a := by
  obtain ⟨u, hu⟩ : ∃ u : ℚ, u = 1 / 10 ^ 99 := ⟨_, rfl⟩
  have h2u : (2 : ℚ) / 10 ^ 99 = 2 * u := by rw [hu]; ring
  have h3 := mul_le_mul_of_nonneg_right hα hμ
  have hb := abs_le.mp h
  have ha : 0 ≤ a := by linarith [hb.1]
  have ha2 : a ≤ 2 * μ := by linarith [hb.2]
  have h1 := hd.near a
  rw [abs_of_nonneg ha, div_eq_mul_one_div, ← hu] at h1
  have hu0 : 0 ≤ u := by rw [hu]; positivity
  have h4 : a * u ≤ 2 * μ * u := mul_le_mul_of_nonneg_right ha2 hu0
  refine ⟨?_, dec_nonneg hd ha⟩
  rw [h2u]
  have h5 := abs_le.mp h1
  rw [abs_le]
  constructor <;> linarith [hb.1, hb.2, h5.1, h5.2]

theorem near_div {a μ α P P' δ : ℚ} (hμ : 0 ≤ μ) (hα0 : 0 ≤ α) (hP : 0 < P) (hδ0 : 0 ≤ δ) (hδ : δ ≤ 1 / 4)
    (h : |a - μ| ≤ α * μ) (h' : |P' - P| ≤ δ * P) :
    0 < P' ∧ |a / P' - μ / P| ≤ (α + 4 / 3 * δ * (1 + α)) * (μ / P) := by
  have hb := abs_le.mp h
  have hb' := abs_le.mp h'
  have h1 : P * (1 - δ) ≤ P' := by linarith [hb'.1]
  have h2 : P' ≤ P * (1 + δ) := by linarith [hb'.2]
  have h3 : P * (3 / 4) ≤ P * (1 - δ) := mul_le_mul_of_nonneg_left (by linarith) hP.le
  have hP' : 0 < P' := by linarith
  refine ⟨hP', ?_⟩
  have hz : 0 ≤ μ / P := div_nonneg hμ hP.le
  obtain ⟨z, hzd⟩ : ∃ z, z = μ / P := ⟨_, rfl⟩
  have hμz : μ = z * P := by rw [hzd]; field_simp
  rw [← hzd] at hz ⊢
  rw [abs_le]
  have e1 : a / P' - z = (a - z * P') / P' := by field_simp
  rw [e1, le_div_iff₀ hP', div_le_iff₀ hP']
  have hzP : 0 ≤ z * P := mul_nonneg hz hP.le
  have k1 : z * P' ≤ z * (P * (1 + δ)) := mul_le_mul_of_nonneg_left h2 hz
  have k2 : z * (P * (1 - δ)) ≤ z * P' := mul_le_mul_of_nonneg_left h1 hz
  have hc0 : 0 ≤ α + 4 / 3 * δ * (1 + α) := by positivity
  have k3 := mul_le_mul_of_nonneg_left k2 hc0
  obtain ⟨y, hy⟩ : ∃ y, y = z * P := ⟨_, rfl⟩
  have y0 : 0 ≤ y := hy ▸ hzP
  rw [← hy] at hμz
  rw [hμz] at hb
  have e2 : z * (P * (1 + δ)) = y * (1 + δ) := by rw [hy]; ring
  have e3 : z * (P * (1 - δ)) = y * (1 - δ) := by rw [hy]; ring
  rw [e2] at k1
  rw [e3] at k2 k3
  have e4 : (α + 4 / 3 * δ * (1 + α)) * z * P' = (α + 4 / 3 * δ * (1 + α)) * (z * P') := by ring
  have e5 : -((α + 4 / 3 * δ * (1 + α)) * z) * P' = -((α + 4 / 3 * δ * (1 + α)) * (z * P')) := by ring
  rw [e4, e5]
  have hδ1 : 0 ≤ 1 - 4 * δ := by linarith
  have key : y * (α + δ) ≤ (α + 4 / 3 * δ * (1 + α)) * (y * (1 - δ)) := by
    have : (α + 4 / 3 * δ * (1 + α)) * (y * (1 - δ)) - y * (α + δ) = y * (1 / 3 * (δ * (1 + α)) * (1 - 4 * δ)) := by ring
    have h0 : 0 ≤ y * (1 / 3 * (δ * (1 + α)) * (1 - 4 * δ)) := by positivity
    linarith
  constructor <;> linarith [hb.1, hb.2]

theorem near_max {a a' b b' ε : ℚ} (hε : 0 ≤ ε) (h : |a - b| ≤ ε * b) (h' : |a' - b'| ≤ ε * b') :
    |max a a' - max b b'| ≤ ε * max b b' := by
  refine (abs_max_sub_max_le_max _ _ _ _).trans (max_le (h.trans ?_) (h'.trans ?_))
  · exact mul_le_mul_of_nonneg_left (le_max_left _ _) hε
  · exact mul_le_mul_of_nonneg_left (le_max_right _ _) hε

theorem near_add {a a' b b' ε : ℚ} (h : |a - b| ≤ ε * b) (h' : |a' - b'| ≤ ε * b') :
    |a + a' - (b + b')| ≤ ε * (b + b') := by
  have e : a + a' - (b + b') = (a - b) + (a' - b') := by ring
  rw [e, mul_add]
  exact (abs_add_le _ _).trans (add_le_add h h')

theorem near_mono {a b ε ε' : ℚ} (hb : 0 ≤ b) (hle : ε ≤ ε') (h : |a - b| ≤ ε * b) : |a - b| ≤ ε' * b :=
  h.trans (mul_le_mul_of_nonneg_right hle hb)

/-- A quotient of rounded numbers, rounded. -/
theorem near_quot (hd : Dec100 dec) {a μ α P P₁ δ : ℚ} (hμ : 0 ≤ μ) (hα0 : 0 ≤ α) (hα : α ≤ 1 / 4) (hP : 0 < P) (hδ0 : 0 ≤ δ)
    (hδ : δ ≤ 1 / 8) (h : |a - μ| ≤ α * μ) (h' : |P₁ - P| ≤ δ * P) :
    ∃ q, fdiv a (dec P₁) = .ok q ∧ |dec q - μ / P| ≤ (α + 4 / 3 * (δ + 2 / 10 ^ 99) * (1 + α) + 2 / 10 ^ 99) * (μ / P) := by
  have ht : (0 : ℚ) ≤ 2 / 10 ^ 99 := by positivity
  have ht2 : (2 : ℚ) / 10 ^ 99 ≤ 1 / 8 := by norm_num
  obtain ⟨p1, -⟩ := near_dec hd hP.le (by linarith) h'
  obtain ⟨q0, q1⟩ := near_div hμ hα0 hP (by linarith) (by linarith) h p1
  refine ⟨_, fdiv_of_ne q0.ne', (near_dec hd (div_nonneg hμ hP.le) ?_ q1).1⟩
  generalize (2 : ℚ) / 10 ^ 99 = t at ht ht2 ⊢
  have h1 : 4 / 3 * (δ + t) * (1 + α) ≤ 4 / 3 * (1 / 4) * (5 / 4) :=
    mul_le_mul (by linarith) (by linarith) (by linarith) (by norm_num)
  linarith

/-! ## The bounds -/

theorem rnd_pow_sub_one (hr : Nearest rnd) {n : Nat} (hn : n + 1 ≤ 1022) :
    |rnd (2 ^ (n + 1) - 1) - (2 ^ (n + 1) - 1)| ≤ 1 / 2 ^ 53 * (2 ^ (n + 1) - 1) := by
  have h1 : (1 : ℚ) ≤ 2 ^ n := one_le_pow₀ (by norm_num)
  have h2 : (1 : ℚ) ≤ 2 ^ (n + 1) - 1 := by rw [pow_succ]; linarith only [h1]
  have h3 : (1 : ℚ) / 2 ^ 1022 ≤ 1 := by
    rw [div_le_one (by positivity)]; exact one_le_pow₀ (by norm_num)
  have := hr.rel (q := 2 ^ (n + 1) - 1) (h3.trans h2) (le_trans (by linarith only : (2 : ℚ) ^ (n + 1) - 1 ≤ 2 ^ (n + 1))
    (two_pow_le_big hn))
  rw [mul_comm]
  exact this

theorem rnd_pow_sub_one_exact (hr : Nearest rnd) {n : Nat} (hn : n + 1 ≤ 53) :
    |rnd (2 ^ (n + 1) - 1) - (2 ^ (n + 1) - 1)| ≤ 0 * (2 ^ (n + 1) - 1) := by
  have h1 : 1 ≤ 2 ^ (n + 1) := Nat.one_le_two_pow
  have h2 : (2 : ℚ) ^ (n + 1) - 1 = ((2 ^ (n + 1) - 1 : Nat) : ℚ) := by push_cast [h1]; rfl
  have h3 : 2 ^ (n + 1) ≤ 2 ^ 53 := Nat.pow_le_pow_right (by norm_num) hn
  rw [h2, hr.nat53 _ (by omega), sub_self, zero_mul, abs_zero]

/-- The bounds are near the exact ones. -/
theorem maxBoundsLoopF_near (hd : Dec100 dec) (f : List (BDD m)) (δ : ℚ) (hδ0 : 0 ≤ δ) (hδ : δ ≤ 1 / 8) (L : Nat)
    (hL : L ≤ 1022) (hrn : ∀ n, n + 1 ≤ L → |rnd (2 ^ (n + 1) - 1) - (2 ^ (n + 1) - 1)| ≤ δ * (2 ^ (n + 1) - 1))
    (ε : ℚ) (hε : 4 / 3 * (δ + 2 / 10 ^ 99) + 2 / 10 ^ 99 ≤ ε) :
    ∀ (bs : List (BDD m)) (z : BDD m) (res res' : ℚ × ℚ), bs.length ≤ L → 0 ≤ res'.1 → 0 ≤ res'.2 →
    |res.1 - res'.1| ≤ ε * res'.1 → |res.2 - res'.2| ≤ 1 / 10 ^ 98 * res'.2 →
    ∃ v v', maxBoundsLoopF rnd dec f bs z res = .ok v ∧ maxBoundsLoop f bs z res' = .ok v' ∧
      |v.1 - v'.1| ≤ ε * v'.1 ∧ |v.2 - v'.2| ≤ 1 / 10 ^ 98 * v'.2
  | [], z, res, res', _, _, _, h1, h2 => ⟨res, res', rfl, rfl, h1, h2⟩
  | b :: bs, z, res, res', hl, p1, p2, h1, h2 => by
      have hl' : bs.length + 1 ≤ L := by simpa using hl
      set M := getMaxValue (f.map (·.and (z.and b))) with hMdef
      have hc1 : (0 : ℚ) < 2 ^ (bs.length + 1) - 1 := by
        have : (1 : ℚ) ≤ 2 ^ bs.length := one_le_pow₀ (by norm_num)
        rw [pow_succ]; linarith
      have hc2 : (0 : ℚ) < 2 ^ bs.length := by positivity
      have hM0 : (0 : ℚ) ≤ M := by positivity
      obtain ⟨q1, e1, n1⟩ := near_quot hd hM0 le_rfl (by norm_num) hc1 hδ0 hδ
        (by rw [sub_self, abs_zero, zero_mul] : |(M : ℚ) - M| ≤ 0 * M) (hrn _ hl')
      obtain ⟨q2, e2, n2⟩ := near_quot hd hM0 le_rfl (by norm_num) hc2 le_rfl (by norm_num)
        (by rw [sub_self, abs_zero, zero_mul] : |(M : ℚ) - M| ≤ 0 * M)
        (by rw [sub_self, abs_zero, zero_mul] : |(2 : ℚ) ^ bs.length - 2 ^ bs.length| ≤ 0 * 2 ^ bs.length)
      have hεp : 0 ≤ ε := le_trans (by positivity) hε
      have n1' := near_mono (div_nonneg hM0 hc1.le) (by linarith : 0 + 4 / 3 * (δ + 2 / 10 ^ 99) * (1 + 0) + 2 / 10 ^ 99 ≤ ε) n1
      have n2' := near_mono (div_nonneg hM0 hc2.le)
        (by norm_num : 0 + 4 / 3 * ((0 : ℚ) + 2 / 10 ^ 99) * (1 + 0) + 2 / 10 ^ 99 ≤ 1 / 10 ^ 98) n2
      obtain ⟨v, v', g1, g2, g3⟩ := maxBoundsLoopF_near hd f δ hδ0 hδ L hL hrn ε hε bs (z.and b.not)
        (max res.1 (dec q1), max res.2 (dec q2))
        (max res'.1 (M / (2 ^ (bs.length + 1) - 1)), max res'.2 (M / 2 ^ bs.length)) (by omega)
        (le_max_of_le_left p1) (le_max_of_le_left p2) (near_max hεp h1 n1') (near_max (by positivity) h2 n2')
      refine ⟨v, v', ?_, ?_, g3⟩
      · unfold maxBoundsLoopF
        simp only [pow2, if_neg (show ¬ bs.length + 1 ≥ 1024 by omega),
          if_neg (show ¬ bs.length ≥ 1024 by omega), bind, Except.bind, ← hMdef, e1, e2]
        exact g1
      · simp only [maxBoundsLoop, pow2, if_neg (show ¬ bs.length + 1 ≥ 1024 by omega),
          if_neg (show ¬ bs.length ≥ 1024 by omega), fdiv, if_neg hc1.ne',
          if_neg hc2.ne', bind, Except.bind, ← hMdef, g2]

/-- The averages are near the exact ones. -/
theorem avgBoundsLoopF_near (hd : Dec100 dec) (f : List (BDD m)) (N : Nat) (hf : f.length + N ≤ 256) (hfN : Fits N f)
    (δ : ℚ) (hδ0 : 0 ≤ δ) (hδ : δ ≤ 1 / 8) (L : Nat)
    (hL : L ≤ 1022) (hrn : ∀ n, n + 1 ≤ L → |rnd (2 ^ (n + 1) - 1) - (2 ^ (n + 1) - 1)| ≤ δ * (2 ^ (n + 1) - 1))
    (α : ℚ) (hα0 : 0 ≤ α) (hα : α ≤ 1 / 8)
    (havg : ∀ g : List (BDD m), g.length = f.length → Fits N g → ∃ q, averageValueF rnd dec g = .ok q ∧
      |q - mean N (fun x => (uAt g x : ℚ))| ≤ α * mean N (fun x => (uAt g x : ℚ)))
    (ε₁ ε₂ : ℚ) (hε₁ : α + 4 / 3 * (δ + 2 / 10 ^ 99) * (1 + α) + 2 / 10 ^ 99 ≤ ε₁)
    (hε₂ : α + 4 / 3 * (2 / 10 ^ 99) * (1 + α) + 2 / 10 ^ 99 ≤ ε₂) :
    ∀ (bs : List (BDD m)) (z : BDD m) (k : Nat) (res res' : ℚ × ℚ), bs.length + k ≤ L → Fits N (z :: bs) →
    0 ≤ res'.1 → 0 ≤ res'.2 → ε₁ + L * (2 / 10 ^ 99) ≤ 1 → ε₂ + L * (2 / 10 ^ 99) ≤ 1 →
    |res.1 - res'.1| ≤ (ε₁ + k * (2 / 10 ^ 99)) * res'.1 → |res.2 - res'.2| ≤ (ε₂ + k * (2 / 10 ^ 99)) * res'.2 →
    ∃ v v', avgBoundsLoopF rnd dec f bs z res = .ok v ∧ avgBoundsLoop f bs z res' = .ok v' ∧
      |v.1 - v'.1| ≤ (ε₁ + L * (2 / 10 ^ 99)) * v'.1 ∧ |v.2 - v'.2| ≤ (ε₂ + L * (2 / 10 ^ 99)) * v'.2
  | [], z, k, res, res', hk, _, p1, p2, _, _, h1, h2 => by
      have hkL : (k : ℚ) ≤ L := by exact_mod_cast (by simpa using hk : k ≤ L)
      have h3 := mul_le_mul_of_nonneg_right hkL (by positivity : (0 : ℚ) ≤ 2 / 10 ^ 99)
      exact ⟨res, res', rfl, rfl, near_mono p1 (by linarith) h1, near_mono p2 (by linarith) h2⟩
  | b :: bs, z, k, res, res', hk, hfit, p1, p2, b1, b2, h1, h2 => by
      have hl' : bs.length + 1 + k ≤ L := by simpa using hk
      have hz := hfit z (by simp)
      have hb := hfit b (by simp)
      have hzb : Fits N (f.map (·.and (z.and b))) := by
        intro c hc
        obtain ⟨a, ha, rfl⟩ := List.mem_map.mp hc
        exact fits_and (hfN a ha) (fits_and hz hb)
      have hav := averageValue_spec (f.map (·.and (z.and b))) N N hzb
        (fun c hc => supportSize_le_of_fits (hzb c hc)) (by simpa using hf)
      have hbn : ∀ v ∈ b.not.supportIndices, v < N := hb
      obtain ⟨a, ha, hna⟩ := havg (f.map (·.and (z.and b))) (by simp) hzb
      have hM0 : 0 ≤ mean N (fun x => (uAt (f.map (·.and (z.and b))) x : ℚ)) := mean_nonneg N (fun x => by positivity)
      set M := mean N (fun x => (uAt (f.map (·.and (z.and b))) x : ℚ)) with hMdef
      have hc1 : (0 : ℚ) < 2 ^ (bs.length + 1) - 1 := by
        have : (1 : ℚ) ≤ 2 ^ bs.length := one_le_pow₀ (by norm_num)
        rw [pow_succ]; linarith
      have hc2 : (0 : ℚ) < 2 ^ bs.length := by positivity
      obtain ⟨q1, e1, n1⟩ := near_quot hd hM0 hα0 (by linarith) hc1 hδ0 hδ hna (hrn _ (by omega))
      obtain ⟨q2, e2, n2⟩ := near_quot hd hM0 hα0 (by linarith) hc2 le_rfl (by norm_num) hna
        (by rw [sub_self, abs_zero, zero_mul] : |(2 : ℚ) ^ bs.length - 2 ^ bs.length| ≤ 0 * 2 ^ bs.length)
      have ht : (0 : ℚ) ≤ 2 / 10 ^ 99 := by positivity
      have hkt : 0 ≤ (k : ℚ) * (2 / 10 ^ 99) := by positivity
      have hkL : ((k : ℚ) + 1) * (2 / 10 ^ 99) ≤ L * (2 / 10 ^ 99) :=
        mul_le_mul_of_nonneg_right (by exact_mod_cast (by omega : k + 1 ≤ L)) ht
      have d1 := div_nonneg hM0 hc1.le
      have d2 := div_nonneg hM0 hc2.le
      have n1' := near_mono d1 (by linarith : _ ≤ ε₁ + k * (2 / 10 ^ 99)) n1
      have n2' := near_mono d2 (by rw [zero_add]; linarith : _ ≤ ε₂ + k * (2 / 10 ^ 99)) n2
      have s1 := (near_dec hd (add_nonneg p1 d1) (by linarith) (near_add h1 n1')).1
      have s2 := (near_dec hd (add_nonneg p2 d2) (by linarith) (near_add h2 n2')).1
      have ek : ∀ ε : ℚ, ε + k * (2 / 10 ^ 99) + 2 / 10 ^ 99 = ε + (k + 1 : Nat) * (2 / 10 ^ 99) := fun ε => by
        push_cast; ring
      rw [ek] at s1 s2
      obtain ⟨v, v', g1, g2, g3⟩ := avgBoundsLoopF_near hd f N hf hfN δ hδ0 hδ L hL hrn α hα0 hα havg ε₁ ε₂ hε₁ hε₂ bs
        (z.and b.not) (k + 1) (dec (res.1 + dec q1), dec (res.2 + dec q2))
        (res'.1 + M / (2 ^ (bs.length + 1) - 1), res'.2 + M / 2 ^ bs.length) (by omega) (by
          intro c hc
          rcases List.mem_cons.mp hc with rfl | hc
          · exact fits_and hz hbn
          · exact hfit c (by simp [hc])) (add_nonneg p1 d1) (add_nonneg p2 d2) b1 b2 s1 s2
      refine ⟨v, v', ?_, ?_, g3⟩
      · unfold avgBoundsLoopF
        simp only [pow2, if_neg (show ¬ bs.length + 1 ≥ 1024 by omega),
          if_neg (show ¬ bs.length ≥ 1024 by omega), bind, Except.bind, ha, e1, e2]
        exact g1
      · simp only [avgBoundsLoop, pow2, if_neg (show ¬ bs.length + 1 ≥ 1024 by omega),
          if_neg (show ¬ bs.length ≥ 1024 by omega), fdiv, if_neg hc1.ne',
          if_neg hc2.ne', bind, Except.bind, hav, g2]

/-- The two bounds of `maximum_relative_value_bounds`. -/
theorem maximumRelativeValueBoundsF_near (hr : Nearest rnd) (hd : Dec100 dec) (f g : List (BDD m))
    (hf : f.length ≤ 256) (hg0 : g ≠ []) (hg : g.length ≤ 1022) :
    ∃ v lo hi, maximumRelativeValueBoundsF rnd dec f g = .ok v ∧
      IsMax (fun x => (uAt f x : ℚ) / (2 ^ (Nat.log 2 (max 1 (uAt g x)) + 1) - 1)) lo ∧
      IsMax (fun x => (uAt f x : ℚ) / 2 ^ Nat.log 2 (max 1 (uAt g x))) hi ∧
      |v.1 - lo| ≤ 1 / 2 ^ 52 * lo ∧ |v.2 - hi| ≤ 1 / 10 ^ 98 * hi ∧
      (g.length ≤ 53 → |v.1 - lo| ≤ 1 / 10 ^ 98 * lo) := by
  obtain ⟨⟨lo, hi⟩, hv, h1, h2⟩ := maximumRelativeValueBounds_spec f g hf hg0 (by omega)
  obtain ⟨F, hF, hFl, -⟩ := bddMaxOne_spec g hg0
  have hrl : F.reverse.length = g.length := by rw [List.length_reverse, hFl]
  simp only [maximumRelativeValueBounds, hF, bind, Except.bind] at hv
  obtain ⟨v, v', e1, e2, n1, n2⟩ := maxBoundsLoopF_near (rnd := rnd) hd f (1 / 2 ^ 53) (by positivity) (by norm_num) g.length hg
    (fun n hn => rnd_pow_sub_one hr (by omega)) (1 / 2 ^ 52) (by norm_num) F.reverse .one (0, 0) (0, 0) hrl.le le_rfl le_rfl
    (by norm_num) (by norm_num)
  rw [hv, Except.ok.injEq] at e2
  subst e2
  refine ⟨v, lo, hi, by simp only [maximumRelativeValueBoundsF, hF, bind, Except.bind, e1], h1, h2, n1, n2, fun h53 => ?_⟩
  obtain ⟨u, u', e3, e4, n3, -⟩ := maxBoundsLoopF_near (rnd := rnd) hd f 0 le_rfl (by norm_num) g.length hg
    (fun n hn => rnd_pow_sub_one_exact hr (by omega)) (1 / 10 ^ 98) (by norm_num) F.reverse .one (0, 0) (0, 0) hrl.le le_rfl le_rfl
    (by norm_num) (by norm_num)
  rw [hv, Except.ok.injEq] at e4
  rw [e1, Except.ok.injEq] at e3
  subst e4 e3
  exact n3

/-- The two bounds of `average_relative_value`. -/
theorem averageRelativeValueF_near (hr : Nearest rnd) (hd : Dec100 dec) (f g : List (BDD m)) (N : Nat) (hfN : Fits N f)
    (hgN : Fits N g) (hf : f.length + N ≤ 256) (hg0 : g ≠ []) (hg : g.length ≤ 1022) :
    ∃ v lo hi, averageRelativeValueF rnd dec f g = .ok v ∧
      lo = mean N (fun x => (uAt f x : ℚ) / (2 ^ (Nat.log 2 (max 1 (uAt g x)) + 1) - 1)) ∧
      hi = mean N (fun x => (uAt f x : ℚ) / 2 ^ Nat.log 2 (max 1 (uAt g x))) ∧
      |v.1 - lo| ≤ (N + 1) / 2 ^ 52 * lo ∧ |v.2 - hi| ≤ (N / 2 ^ 52 + 1 / 10 ^ 95) * hi ∧
      (N ≤ 53 → |v.2 - hi| ≤ 1 / 10 ^ 95 * hi ∧ (g.length ≤ 53 → |v.1 - lo| ≤ 1 / 10 ^ 95 * lo)) := by
  have hv := averageRelativeValue_spec f g N hfN hgN hf hg0 (by omega)
  have hlo0 : 0 ≤ mean N (fun x => (uAt f x : ℚ) / (2 ^ (Nat.log 2 (max 1 (uAt g x)) + 1) - 1)) :=
    mean_nonneg N fun x => div_nonneg (by positivity) (sub_nonneg.mpr (one_le_pow₀ (by norm_num)))
  have hhi0 : 0 ≤ mean N (fun x => (uAt f x : ℚ) / 2 ^ Nat.log 2 (max 1 (uAt g x))) :=
    mean_nonneg N fun x => by positivity
  generalize mean N (fun x => (uAt f x : ℚ) / (2 ^ (Nat.log 2 (max 1 (uAt g x)) + 1) - 1)) = lo at hv hlo0
  generalize mean N (fun x => (uAt f x : ℚ) / 2 ^ Nat.log 2 (max 1 (uAt g x))) = hi at hv hhi0
  obtain ⟨F, hF, hFl, hFv⟩ := bddMaxOne_spec g hg0
  have hrl : F.reverse.length = g.length := by rw [List.length_reverse, hFl]
  have hFN : Fits N F := by
    apply fits_of_uAt
    intro x y hxy
    rw [hFv, hFv, uAt, uAt, bitsAt_agree hgN hxy]
  have hfit : Fits N (BDD.one :: F.reverse) := by
    intro c hc
    rcases List.mem_cons.mp hc with rfl | hc
    · simp [BDD.supportIndices, BDD.one, Edge.one, DD.vars]
    · exact hFN c (List.mem_reverse.mp hc)
  simp only [averageRelativeValue, hF, bind, Except.bind] at hv
  have hN : (N : ℚ) ≤ 256 := by exact_mod_cast (by omega : N ≤ 256)
  have hN0 : (0 : ℚ) ≤ N := by positivity
  have hL : (g.length : ℚ) ≤ 1022 := by exact_mod_cast hg
  have hL0 : (0 : ℚ) ≤ g.length := by positivity
  have havg : ∀ g : List (BDD m), g.length = f.length → Fits N g → ∃ q, averageValueF rnd dec g = .ok q ∧
      |q - mean N (fun x => (uAt g x : ℚ))| ≤ (N / 2 ^ 52 + 1 / 10 ^ 98) * mean N (fun x => (uAt g x : ℚ)) ∧
      (N ≤ 53 → |q - mean N (fun x => (uAt g x : ℚ))| ≤ 1 / 10 ^ 98 * mean N (fun x => (uAt g x : ℚ))) := by
    intro g hgl hgf
    obtain ⟨q, a1, -, a2, a3, -⟩ := C98_average_value hr hd g N N hgf (fun b hb => supportSize_le_of_fits (hgf b hb)) (by omega)
    exact ⟨q, a1, a2, a3⟩
  -- a run with given accuracies
  have run : ∀ (δ α ε₁ ε₂ : ℚ), 0 ≤ δ → δ ≤ 1 / 8 →
      (∀ n, n + 1 ≤ g.length → |rnd (2 ^ (n + 1) - 1) - (2 ^ (n + 1) - 1)| ≤ δ * (2 ^ (n + 1) - 1)) → 0 ≤ α → α ≤ 1 / 8 →
      (∀ g : List (BDD m), g.length = f.length → Fits N g → ∃ q, averageValueF rnd dec g = .ok q ∧
        |q - mean N (fun x => (uAt g x : ℚ))| ≤ α * mean N (fun x => (uAt g x : ℚ))) →
      α + 4 / 3 * (δ + 2 / 10 ^ 99) * (1 + α) + 2 / 10 ^ 99 ≤ ε₁ → α + 4 / 3 * (2 / 10 ^ 99) * (1 + α) + 2 / 10 ^ 99 ≤ ε₂ →
      ε₁ + g.length * (2 / 10 ^ 99) ≤ 1 → ε₂ + g.length * (2 / 10 ^ 99) ≤ 1 →
      ∃ v, averageRelativeValueF rnd dec f g = .ok v ∧ |v.1 - lo| ≤ (ε₁ + g.length * (2 / 10 ^ 99)) * lo ∧
        |v.2 - hi| ≤ (ε₂ + g.length * (2 / 10 ^ 99)) * hi := by
    intro δ α ε₁ ε₂ p1 p2 p3 p4 p5 p6 p7 p8 p9 p10
    obtain ⟨v, v', e1, e2, n1, n2⟩ := avgBoundsLoopF_near (rnd := rnd) hd f N hf hfN δ p1 p2 g.length hg p3 α p4 p5 p6 ε₁ ε₂ p7 p8
      F.reverse .one 0 (0, 0) (0, 0) hrl.le hfit le_rfl le_rfl p9 p10 (by norm_num) (by norm_num)
    rw [hv, Except.ok.injEq] at e2
    subst e2
    exact ⟨v, by simp only [averageRelativeValueF, hF, bind, Except.bind, e1], n1, n2⟩
  have ht : (g.length : ℚ) * (2 / 10 ^ 99) ≤ 1022 * (2 / 10 ^ 99) := mul_le_mul_of_nonneg_right hL (by positivity)
  have hα : (N : ℚ) / 2 ^ 52 ≤ 256 / 2 ^ 52 := by gcongr
  have hα0 : (0 : ℚ) ≤ N / 2 ^ 52 := by positivity
  have eN : ((N : ℚ) + 1) / 2 ^ 52 = N / 2 ^ 52 + 1 / 2 ^ 52 := add_div _ _ _
  obtain ⟨v, h, n1, n2⟩ := run (1 / 2 ^ 53) (N / 2 ^ 52 + 1 / 10 ^ 98) (N / 2 ^ 52 + 3 / 4 / 2 ^ 52) (N / 2 ^ 52 + 2 / 10 ^ 98)
    (by positivity) (by norm_num) (fun n hn => rnd_pow_sub_one hr (by omega)) (by positivity) (by norm_num at hα ⊢; linarith)
    (fun g h1 h2 => let ⟨q, a, b, _⟩ := havg g h1 h2; ⟨q, a, b⟩) (by norm_num at hα hα0 ⊢; linarith)
    (by norm_num at hα hα0 ⊢; linarith) (by norm_num at hα hα0 ht ⊢; linarith) (by norm_num at hα hα0 ht ⊢; linarith)
  refine ⟨v, lo, hi, h, rfl, rfl, near_mono hlo0 (by norm_num at eN hα hα0 ht ⊢; linarith) n1,
    near_mono hhi0 (by norm_num at hα hα0 ht ⊢; linarith) n2, fun h53 => ⟨?_, fun h53' => ?_⟩⟩
  · obtain ⟨u, h', -, n3⟩ := run (1 / 2 ^ 53) (1 / 10 ^ 98) (1 / 2) (2 / 10 ^ 98)
      (by positivity) (by norm_num) (fun n hn => rnd_pow_sub_one hr (by omega)) (by positivity) (by norm_num)
      (fun g h1 h2 => let ⟨q, a, _, b⟩ := havg g h1 h2; ⟨q, a, b h53⟩) (by norm_num) (by norm_num)
      (by norm_num at ht ⊢; linarith) (by norm_num at ht ⊢; linarith)
    rw [h, Except.ok.injEq] at h'
    subst h'
    exact near_mono hhi0 (by norm_num at ht ⊢; linarith) n3
  · obtain ⟨u, h', n3, -⟩ := run 0 (1 / 10 ^ 98) (2 / 10 ^ 98) (2 / 10 ^ 98)
      le_rfl (by norm_num) (fun n hn => rnd_pow_sub_one_exact hr (by omega)) (by positivity) (by norm_num)
      (fun g h1 h2 => let ⟨q, a, _, b⟩ := havg g h1 h2; ⟨q, a, b h53⟩) (by norm_num) (by norm_num)
      (by norm_num at ht ⊢; linarith) (by norm_num at ht ⊢; linarith)
    rw [h, Except.ok.injEq] at h'
    subst h'
    exact near_mono hlo0 (by norm_num at ht ⊢; linarith) n3

/-! ## Symbolic division -/

theorem near_quot_pow (hd : Dec100 dec) {a μ α : ℚ} (hμ : 0 ≤ μ) (hα0 : 0 ≤ α) (hα : α ≤ 1 / 4) (e : Nat) (h : |a - μ| ≤ α * μ) :
    ∃ q, fdiv a (dec (2 ^ e)) = .ok q ∧ |dec q - μ / 2 ^ e| ≤ (α + 1 / 10 ^ 98) * (μ / 2 ^ e) := by
  obtain ⟨q, e2, n2⟩ := near_quot hd hμ hα0 hα (by positivity : (0 : ℚ) < 2 ^ e) le_rfl (by norm_num) h
    (by rw [sub_self, abs_zero, zero_mul] : |(2 : ℚ) ^ e - 2 ^ e| ≤ 0 * 2 ^ e)
  exact ⟨q, e2, near_mono (by positivity) (by norm_num; linarith) n2⟩

theorem wcreSymbolicDivisionF_near (hd : Dec100 dec) {r : NumRep} {f g D A F : List (BDD m)} (h : Prepared r f g D A F) (e : Nat)
    (he : D.length + e ≤ 256) (w : ℚ) (hw : IsMax (relErrAt r f g) w) :
    ∃ v, wcreSymbolicDivisionF dec r f g e = .ok v ∧ |v - ⌊w * 2 ^ e⌋ / 2 ^ e| ≤ 1 / 10 ^ 98 * (⌊w * 2 ^ e⌋ / 2 ^ e) := by
  have hs := wcreSymbolicDivision_spec h e he w hw
  obtain ⟨Q, hQ, -, -⟩ := C12_divide D F e
  have hp : pow2 e = .ok (2 ^ e) := by rw [pow2, if_neg (by omega)]
  have h2 : (2 : ℚ) ^ e ≠ 0 := by positivity
  simp only [wcreSymbolicDivision, h.diff, h.abs, h.maxOne, hQ, hp, bind, Except.bind, fdiv, if_neg h2, Except.ok.injEq] at hs
  obtain ⟨q, e1, n1⟩ := near_quot_pow hd (by positivity : (0 : ℚ) ≤ getMaxValue Q) le_rfl (by norm_num) e
    (by rw [sub_self, abs_zero, zero_mul] : |(getMaxValue Q : ℚ) - getMaxValue Q| ≤ 0 * getMaxValue Q)
  refine ⟨dec q, by simp only [wcreSymbolicDivisionF, h.diff, h.abs, h.maxOne, hQ, hp, bind, Except.bind, e1], ?_⟩
  rw [hs, zero_add] at n1
  exact n1

theorem acreSymbolicDivisionF_near (hr : Nearest rnd) (hd : Dec100 dec) {r : NumRep} {f g D A F : List (BDD m)} (h : Prepared r f g D A F)
    (e N : Nat) (hf : Fits N f) (hg : Fits N g) (he : D.length + 2 + e + N ≤ 256) :
    ∃ v, acreSymbolicDivisionF rnd dec r f g e = .ok v ∧
      |v - mean N (fun x => (⌊relErrAt r f g x * 2 ^ e⌋ : ℚ)) / 2 ^ e| ≤
        (N / 2 ^ 52 + 1 / 10 ^ 97) * (mean N (fun x => (⌊relErrAt r f g x * 2 ^ e⌋ : ℚ)) / 2 ^ e) ∧
      (N ≤ 53 → |v - mean N (fun x => (⌊relErrAt r f g x * 2 ^ e⌋ : ℚ)) / 2 ^ e| ≤
        1 / 10 ^ 97 * (mean N (fun x => (⌊relErrAt r f g x * 2 ^ e⌋ : ℚ)) / 2 ^ e)) := by
  obtain ⟨Q, hQ, hQl, hQv⟩ := C12_divide D F e
  have hfl : ∀ x, (uAt Q x : Int) = ⌊relErrAt r f g x * 2 ^ e⌋ := fun x => by
    rw [divided_floor (h.pos x) (hQv x).1, h.ratio x]
  have hfit : Fits N Q := fits_divided (h.fitsD hf hg) (h.fitsF hf) (fun x => (hQv x).1 (h.pos x))
  obtain ⟨a, a1, -, a2, a3, -⟩ := C98_average_value hr hd Q N N hfit (fun b hb => supportSize_le_of_fits (hfit b hb)) (by omega)
  have hm : mean N (fun x => (uAt Q x : ℚ)) = mean N (fun x => (⌊relErrAt r f g x * 2 ^ e⌋ : ℚ)) :=
    mean_congr N fun x => by rw [← hfl x]; simp
  have hμ : 0 ≤ mean N (fun x => (uAt Q x : ℚ)) := mean_nonneg N fun x => by positivity
  rw [hm] at a2 a3 hμ
  have hN : (N : ℚ) ≤ 256 := by exact_mod_cast (by omega : N ≤ 256)
  have hα : (N : ℚ) / 2 ^ 52 ≤ 256 / 2 ^ 52 := by gcongr
  have hα0 : (0 : ℚ) ≤ N / 2 ^ 52 := by positivity
  have hp : pow2 e = .ok (2 ^ e) := by rw [pow2, if_neg (by omega)]
  obtain ⟨q, e1, n1⟩ := near_quot_pow hd hμ (by positivity : (0 : ℚ) ≤ N / 2 ^ 52 + 1 / 10 ^ 98) (by norm_num at hα ⊢; linarith) e a2
  refine ⟨dec q, by simp only [acreSymbolicDivisionF, h.diff, h.abs, h.maxOne, hQ, a1, hp, bind, Except.bind, e1],
    near_mono (by positivity) (by norm_num; linarith) n1, fun h53 => ?_⟩
  obtain ⟨q', e2, n2⟩ := near_quot_pow hd hμ (by positivity : (0 : ℚ) ≤ 1 / 10 ^ 98) (by norm_num) e (a3 h53)
  rw [e1, Except.ok.injEq] at e2
  subst e2
  exact near_mono (by positivity) (by norm_num) n2

end Verif

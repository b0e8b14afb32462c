import Verif.Proofs.Print
import Verif.Proofs.PrintTime
import Verif.Props.FloatTime

/-! # C120 Numbers printed, C121 Times printed -/

namespace Verif

variable {rnd : ℚ → ℚ}

/-! ## C120 -/

/-- Every number printed reads back as a closest number with six digits, wrong by at most five millionths of it. -/
theorem C120_closest (q : ℚ) :
    ∃ r, readDecimal (formatG q) = some r ∧ ClosestSix q r ∧ |r - q| ≤ |q| * (5 / 10 ^ 6) :=
  let ⟨r, h1, h2⟩ := formatG_reads q
  ⟨r, h1, h2, h2.error⟩

/-- Numbers with six digits are printed as they are. -/
theorem C120_exact (q : ℚ) (hq : SixDigits q) : readDecimal (formatG q) = some q := by
  obtain ⟨r, h1, h2⟩ := formatG_reads q
  rw [h1, h2.exact hq]

/-- The order is kept. -/
theorem C120_mono (q q' r r' : ℚ) (hq : q ≤ q') (h : readDecimal (formatG q) = some r)
    (h' : readDecimal (formatG q') = some r') : r ≤ r' := by
  obtain ⟨s, h1, h2⟩ := formatG_reads q
  obtain ⟨s', h3, h4⟩ := formatG_reads q'
  rcases hq.eq_or_lt with rfl | hlt
  · rw [h] at h'; exact (Option.some.inj h').le
  · rw [h] at h1; rw [h'] at h3
    cases h1; cases h3
    exact h2.mono h4 hlt

/-- What is printed does not show on which side of a limit a number is: one above 0.05 looks like 0.05. -/
theorem C120_limit_false :
    ¬ ∀ q q' : ℚ, formatG q = formatG q' → q = q' := fun h => by
  have := h (1 / 20) (1 / 20 + 1 / 10 ^ 8) (by decide +kernel)
  norm_num at this

/-- Numbers within the half of the last of six digits around a number with six digits look like it. -/
theorem C120_near (q b : ℚ) (hb : SixDigits b) (h0 : 0 < b) (hq : |q - b| * 10 ^ 7 ≤ b) :
    readDecimal (formatG q) = some b := by
  obtain ⟨r, h1, h2⟩ := formatG_reads q
  rw [h1, closestSix_near hb h0 hq h2]

-- a tie between two numbers with six digits goes to the even one
example : formatG (15 / 256) = "0.0585938".toList ∧ formatG (-63 / 2048) = "-0.0307617".toList ∧
    formatG 0 = "0".toList ∧ formatG 16640 = "16640".toList ∧ formatG (2 ^ 64) = "1.84467e+19".toList ∧
    formatG (1 / 2 ^ 20) = "9.53674e-07".toList ∧ formatG (1999999 / 2) = "1e+06".toList := by decide +kernel
example : SixDigits (1 / 20) := ⟨5, -2, by norm_num, by norm_num⟩
example : readDecimal "1.84467e+19".toList = some (184467 * 10 ^ 14) := by decide +kernel
example : (0 : ℚ) < 1 / 20 ∧ |(1 / 20 + 1 / 10 ^ 9 : ℚ) - 1 / 20| * 10 ^ 7 ≤ 1 / 20 := by norm_num

/-! ## C121 -/

theorem toInt_between {q : ℚ} {K : Nat} (h1 : (K : ℚ) ≤ q) (h2 : q < K + 1) (h3 : K < 2 ^ 31) : toInt q = .ok K := by
  have h0 : 0 ≤ q := le_trans (Nat.cast_nonneg K) h1
  have hf : ⌊q⌋ = (K : ℤ) := Int.floor_eq_iff.mpr ⟨by exact_mod_cast h1, by exact_mod_cast h2⟩
  unfold toInt
  dsimp only
  rw [if_pos h0, hf, if_neg (by omega)]

theorem formatTime_duration {q : ℚ} {n : Nat} (hn : n ≤ 2 ^ 50) (below : q < ((n / 1000000 + 1 : Nat) : ℚ))
    (small : ∀ K : Nat, K < 1000 → K * 1000000 ≤ n → (K : ℚ) ≤ q)
    (seconds : ∀ j : Nat, j * 1000000000 ≤ n → ((1000 * j : Nat) : ℚ) ≤ q) : formatTime q = .ok (durationText n) := by
  have below' : ∀ K : Nat, n / 1000000 < K → q < K := fun K hK =>
    lt_of_lt_of_le below (by exact_mod_cast hK)
  unfold formatTime durationText
  by_cases c1 : n < 10 ^ 9
  · rw [if_pos c1, if_pos (by have := below' 1000 (by omega); exact_mod_cast this)]
    rw [toInt_between (K := n / 10 ^ 6) (small _ (by omega) (by omega)) (by push_cast at below ⊢; exact below) (by omega)]
    rw [← intToString_nat]
    rfl
  · have g1 : ¬ q < 1000 := by
      have := seconds 1 (by omega)
      push_cast at this
      linarith
    rw [if_neg c1, if_neg g1]
    by_cases c2 : n < 300 * 10 ^ 9
    · rw [if_pos c2, if_pos (by have := below' 300000 (by omega); exact_mod_cast this)]
      have b1 := seconds (n / 10 ^ 9) (by omega)
      have b2 := below' (1000 * (n / 10 ^ 9 + 1)) (by omega)
      rw [toInt_between (K := n / 10 ^ 9) (by push_cast at b1 ⊢; linarith) (by push_cast at b2 ⊢; linarith) (by omega),
        ← intToString_nat]
      rfl
    · have g2 : ¬ q < 300000 := by
        have := seconds 300 (by omega)
        push_cast at this
        linarith
      rw [if_neg c2, if_neg g2]
      have b1 := seconds (60 * (n / (60 * 10 ^ 9))) (by omega)
      have b2 := below' (60000 * (n / (60 * 10 ^ 9) + 1)) (by omega)
      rw [toInt_between (K := n / (60 * 10 ^ 9)) (by push_cast at b1 ⊢; linarith) (by push_cast at b2 ⊢; linarith)
        (by omega), ← intToString_nat]
      rfl

/-- The time printed is the time measured, in full milliseconds, seconds or minutes, for up to thirteen days: none of
the three roundings on the way shows. -/
theorem C121_time (hr : Nearest rnd) (n : Nat) (hn : n ≤ 2 ^ 50) :
    timeText rnd n = .ok (durationText n) ∧ timeTextN rnd n = .ok (durationText n) := by
  have h := msOf hr n hn
  have hb := h.below (n / 1000000 + 1) (by omega) (by omega)
  constructor
  · unfold timeText
    rw [C78_format_time_rounded hr _ h.isDouble]
    exact formatTime_duration hn hb h.small h.seconds
  · set q := elapsedMs rnd n with hq
    have h0 : 0 ≤ q := by simpa using h.seconds 0 (by rw [Nat.zero_mul]; exact Nat.zero_le n)
    have hn' : n / 1000000 + 1 ≤ 2 ^ 50 := by omega
    have hnq : ((n / 1000000 + 1 : Nat) : ℚ) ≤ 2 ^ 50 := by exact_mod_cast hn'
    have h1 : q < 2 ^ 64 := lt_of_lt_of_le hb (hnq.trans (by norm_num))
    obtain ⟨k, k1⟩ := Int.eq_ofNat_of_zero_le (Int.floor_nonneg.mpr h0)
    have k2 : (k : ℚ) ≤ q := by
      have := Int.floor_le q
      rw [k1] at this
      exact_mod_cast this
    have k3 : ∀ K : Nat, (K : ℚ) ≤ q → (K : ℚ) ≤ k := fun K hK => by
      have : (K : ℤ) ≤ ⌊q⌋ := Int.le_floor.mpr (by exact_mod_cast hK)
      rw [k1] at this
      have : K ≤ k := by exact_mod_cast this
      exact_mod_cast this
    have hk : k ≤ 2 ^ 53 := by
      have : (k : ℚ) ≤ ((n / 1000000 + 1 : Nat) : ℚ) := k2.trans hb.le
      have : k ≤ n / 1000000 + 1 := by exact_mod_cast this
      omega
    have hs : toSizeT q = .ok k := by
      unfold toSizeT
      rw [if_neg (by push Not; exact ⟨by linarith, h1⟩), k1]
      rfl
    unfold timeTextN
    rw [← hq, hs]
    show formatTimeF rnd (rnd k) = _
    rw [hr.small k hk, C78_format_time_rounded hr _ (isDouble_nat k hk)]
    exact formatTime_duration hn (lt_of_le_of_lt k2 hb) (fun K a b => k3 K (h.small K a b)) fun j a => k3 _ (h.seconds j a)

/-- A clock that was not set back never makes the program fail. -/
theorem C121_no_fault (hr : Nearest rnd) (n : Nat) (hn : n < 2 ^ 63) :
    (∃ t, timeText rnd n = .ok t) ∧ ∃ t, timeTextN rnd n = .ok t := by
  have big : ∀ {q : ℚ} (k : Nat), k ≤ 100 → 0 ≤ q → q ≤ 2 ^ k → 0 ≤ rnd q ∧ rnd q ≤ 2 ^ k ∧ IsDouble (rnd q) :=
    fun {q} k hk h0 h1 => by
      have h2 : q ≤ 2 ^ 1023 := h1.trans (pow_le_pow_right₀ (by norm_num) (by omega))
      have h3 : |q| ≤ 2 ^ 1023 := (abs_of_nonneg h0).le.trans h2
      exact ⟨hr.nonneg h0 h2, hr.rnd_le h3 ⟨1, k, by norm_num, by omega, by omega, by simp⟩ h1, hr.isDouble _ h3⟩
  have hnq : (n : ℚ) ≤ 2 ^ 63 := by exact_mod_cast hn.le
  obtain ⟨a0, a1, -⟩ := big 63 (by norm_num) (Nat.cast_nonneg n) hnq
  obtain ⟨b0, b1, -⟩ := big (q := rnd n / 1000000000) 34 (by norm_num) (div_nonneg a0 (by norm_num)) (by
    rw [div_le_iff₀ (by norm_num)]; exact a1.trans (by norm_num))
  obtain ⟨c0, c1, c2⟩ := big (q := rnd (rnd n / 1000000000) * 1000) 44 (by norm_num) (mul_nonneg b0 (by norm_num)) (by
    have := mul_le_mul_of_nonneg_right b1 (by norm_num : (0 : ℚ) ≤ 1000)
    exact this.trans (by norm_num))
  have e0 : elapsedMs rnd n = rnd (rnd (rnd n / 1000000000) * 1000) := by
    unfold elapsedMs; rw [Int.cast_natCast]
  rw [← e0] at c0 c1 c2
  have fmt : ∀ {q : ℚ}, IsDouble q → 0 ≤ q → q ≤ 2 ^ 44 → ∃ t, formatTimeF rnd q = .ok t := fun {q} hd h0 h1 => by
    rw [C78_format_time_rounded hr _ hd]
    unfold formatTime
    split_ifs with d1 d2
    · obtain ⟨k, hk, -⟩ := toInt_nonneg h0 (lt_trans d1 (by norm_num))
      exact ⟨_, by rw [hk]; rfl⟩
    · obtain ⟨k, hk, -⟩ := toInt_nonneg (q := q / 1000) (div_nonneg h0 (by norm_num)) (by
        rw [div_lt_iff₀ (by norm_num)]; exact lt_trans d2 (by norm_num))
      exact ⟨_, by rw [hk]; rfl⟩
    · obtain ⟨k, hk, -⟩ := toInt_nonneg (q := q / 60000) (div_nonneg h0 (by norm_num)) (by
        rw [div_lt_iff₀ (by norm_num)]; exact lt_of_le_of_lt h1 (by norm_num))
      exact ⟨_, by rw [hk]; rfl⟩
  refine ⟨fmt c2 c0 c1, ?_⟩
  set q := elapsedMs rnd n with hq
  obtain ⟨k, k1⟩ := Int.eq_ofNat_of_zero_le (Int.floor_nonneg.mpr c0)
  have k2 : (k : ℚ) ≤ q := by
    have := Int.floor_le q
    rw [k1] at this
    exact_mod_cast this
  have hk44 : (k : ℚ) ≤ 2 ^ 44 := k2.trans c1
  have hk : k ≤ 2 ^ 53 := by
    have : k ≤ 2 ^ 44 := by exact_mod_cast hk44
    exact this.trans (by norm_num)
  have hs : toSizeT q = .ok k := by
    unfold toSizeT
    rw [if_neg (by push Not; exact ⟨by linarith, lt_of_le_of_lt c1 (by norm_num)⟩), k1]
    rfl
  unfold timeTextN
  rw [← hq, hs]
  show ∃ t, formatTimeF rnd (rnd k) = .ok t
  rw [hr.small k hk]
  exact fmt (isDouble_nat k hk) (Nat.cast_nonneg k) hk44

theorem elapsedMs_back (hr : Nearest rnd) {n a : Nat} (hn : n < 2 ^ 62) (ha : a ≤ 40) (h : 2 ^ (a + 1) * 1000000 ≤ n) :
    elapsedMs rnd (-n) ≤ -2 ^ a := by
  have neg : ∀ {q : ℚ} (k : ℤ), -100 ≤ k → k ≤ 100 → -2 ^ 100 ≤ q → q ≤ -2 ^ k → -2 ^ 100 ≤ rnd q ∧ rnd q ≤ -2 ^ k :=
    fun {q} k hk hk' h0 h1 => by
      have h2 : (2 : ℚ) ^ 100 ≤ 2 ^ 1023 := pow_le_pow_right₀ (by norm_num) (by norm_num)
      have h4 : (0 : ℚ) < 2 ^ k := zpow_pos (by norm_num) _
      have h3 : |q| ≤ 2 ^ 1023 := by
        rw [abs_of_neg (by linarith only [h1, h4])]
        exact (neg_le.mp h0).trans h2
      exact ⟨hr.le_rnd h3 ⟨-1, 100, by norm_num, by norm_num, by norm_num, by norm_num⟩ h0,
        hr.rnd_le h3 ⟨-1, k, by norm_num, by omega, by omega, by push_cast; ring⟩ h1⟩
  have hnq : (n : ℚ) ≤ 2 ^ 62 := by exact_mod_cast hn.le
  have hq : (2 : ℚ) ^ (a + 1) * 1000000 ≤ n := by exact_mod_cast h
  have z : ∀ j : ℤ, (2 : ℚ) ^ ((a : ℤ) + j) = 2 ^ a * 2 ^ j := fun j => by rw [zpow_add₀ (by norm_num), zpow_natCast]
  have pa : (0 : ℚ) < 2 ^ a := by positivity
  rw [pow_succ] at hq
  obtain ⟨a0, a1⟩ := neg (q := ((-n : ℤ) : ℚ)) (a + 20) (by omega) (by omega) (by push_cast; linarith) (by
    rw [z]; push_cast; norm_num; linarith)
  -- a sharper bound, from a number with few digits
  have a2 : rnd ((-n : ℤ) : ℚ) ≤ -(2 ^ a * 2000000) := by
    refine hr.rnd_le ?_ ⟨-2000000, a, by norm_num, by omega, by omega, by rw [zpow_natCast]; push_cast; ring⟩
      (by push_cast; linarith)
    have h2 : (2 : ℚ) ^ 62 ≤ 2 ^ 1023 := pow_le_pow_right₀ (by norm_num) (by norm_num)
    push_cast
    rw [abs_neg, abs_of_nonneg (Nat.cast_nonneg n)]
    exact hnq.trans h2
  have hw : -2 ^ 64 ≤ rnd ((-n : ℤ) : ℚ) := by
    refine hr.le_rnd ?_ ⟨-1, 64, by norm_num, by norm_num, by norm_num, by norm_num⟩ (by push_cast; linarith)
    have h2 : (2 : ℚ) ^ 62 ≤ 2 ^ 1023 := pow_le_pow_right₀ (by norm_num) (by norm_num)
    push_cast
    rw [abs_neg, abs_of_nonneg (Nat.cast_nonneg n)]
    exact hnq.trans h2
  unfold elapsedMs
  generalize rnd ((-n : ℤ) : ℚ) = w at *
  obtain ⟨b0, b1⟩ := neg (q := w / 1000000000) (a + -9) (by omega) (by omega) (by
    rw [le_div_iff₀ (by norm_num)]; linarith) (by
    rw [z, div_le_iff₀ (by norm_num)]
    norm_num
    linarith)
  rw [z] at b1
  norm_num at b1
  have hlow : -2 ^ 64 ≤ w / 1000000000 := by
    rw [le_div_iff₀ (by norm_num)]
    linarith
  have hlow2 : -2 ^ 64 ≤ rnd (w / 1000000000) := by
    refine hr.le_rnd ?_ ⟨-1, 64, by norm_num, by norm_num, by norm_num, by norm_num⟩ hlow
    have h2 : (2 : ℚ) ^ 64 ≤ 2 ^ 1023 := pow_le_pow_right₀ (by norm_num) (by norm_num)
    have h3 : w / 1000000000 ≤ 0 := by
      rw [div_le_iff₀ (by norm_num)]
      linarith only [a2, pa]
    rw [abs_of_nonpos h3]
    exact (neg_le.mp hlow).trans h2
  obtain ⟨-, c1⟩ := neg (q := rnd (w / 1000000000) * 1000) (a + 0) (by omega) (by omega) (by linarith) (by
    rw [z]; norm_num; linarith)
  rw [z, zpow_zero, mul_one] at c1
  exact c1

/-- `high_resolution_clock` may be set back. If it is, by two milliseconds or more, the genetic minimisation converts a
negative number to `std::size_t`; by about a hundred days, the bucket minimisation one that no `int` can hold. -/
theorem C121_clock_set_back_false (hr : Nearest rnd) (n : Nat) (hn : n < 2 ^ 62) :
    (2000000 ≤ n → timeTextN rnd (-n) = .error .ub) ∧ (2 ^ 33 * 1000000 ≤ n → timeText rnd (-n) = .error .ub) := by
  constructor
  · intro h
    have := elapsedMs_back hr (a := 0) hn (by norm_num) (by omega)
    unfold timeTextN toSizeT
    rw [if_pos (.inl (by simpa using this))]
    rfl
  · intro h
    have := elapsedMs_back hr (a := 32) hn (by norm_num) (by omega)
    unfold timeText formatTimeF
    have h1 : elapsedMs rnd (-n) < 1000 := lt_of_le_of_lt this (by norm_num)
    rw [if_pos h1]
    have h2 : toInt (elapsedMs rnd (-n)) = .error .ub := by
      unfold toInt
      dsimp only
      have hneg : ¬ 0 ≤ elapsedMs rnd (-n) := not_le.mpr (lt_of_le_of_lt this (by norm_num))
      rw [if_neg hneg]
      refine if_pos (Or.inl ?_)
      have : ⌈elapsedMs rnd (-n)⌉ ≤ -2 ^ 32 := Int.ceil_le.mpr (by push_cast; exact this)
      omega
    rw [h2]
    rfl

-- just below a second, exactly a second, just below five minutes, and thirteen days
example : durationText 999999999 = "999 ms".toList ∧ durationText 1000000000 = "1 s".toList ∧
    durationText 299999999999 = "299 s".toList ∧ durationText 300000000000 = "5 m".toList ∧
    durationText (2 ^ 50) = "18764 m".toList := by decide +kernel
example : (2000000 : Nat) < 2 ^ 62 ∧ 2 ^ 33 * 1000000 < 2 ^ 62 := by norm_num

end Verif

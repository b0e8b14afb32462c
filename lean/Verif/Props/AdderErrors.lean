import Verif.Proofs.AdderWorst
import Verif.Props.Benchmark

/-!
# Closed forms for the errors of the approximate adders: C94 – C97

`/repo/src/example_bdds/approximate_adders.cpp` measured with `/repo/src/error_metrics/`, as done in
`/repo/experiments/`.
-/

namespace Verif

variable {m : Mgr}

theorem adderStart_starts (n p q : Nat) (a : ApproxAdder) : Starts (adderStart n p q a) n := by
  cases a with
  | aca1 => exact ⟨fun k => by simp only [adderStart, aca1Start]; omega,
      fun k _ => by simp only [adderStart, aca1Start]; omega⟩
  | aca2 => exact ⟨blockStart_le _ _ _, fun k _ => blockStart_mono _ _ _ k⟩
  | gda => exact ⟨blockStart_le _ _ _, fun k _ => blockStart_mono _ _ _ k⟩
  | gear => exact ⟨gearStart_le _ _ _, fun k hk => gearStart_mono hk⟩

theorem approximate_ok (asserts : Bool) (a : ApproxAdder) (n p q : Nat) (h : AdderLegal n p q a) :
    ∃ f : List (BDD m), getApproximateAdder asserts a n p q = .ok f ∧ AdderOk n (adderStart n p q a) f := by
  obtain ⟨f, h1, h2, -, h3, -⟩ := C86_adder (m := m) asserts a n p q h
  exact ⟨f, h1, .of_window h2 h3 (adderStart_starts n p q a)⟩

/-! ## C94 -/

/-- The average of the exact sum. -/
theorem C94_regular_average (n : Nat) (hn : 3 * n ≤ 255) :
    ∃ f : List (BDD m), regularAdder n = .ok f ∧ averageValue f = .ok (2 ^ n - 1) := by
  obtain ⟨f, h1, h2⟩ := regularAdder_spec (m := m) n
  refine ⟨f, h1, ?_⟩
  rw [C31_average_value f (2 * n) (2 * n) h2.fits (fun b hb => supportSize_le_of_fits (h2.fits b hb))
    (by rw [h2.len]; omega)]
  obtain ⟨e1, e2⟩ := mean_op n n (le_refl n)
  rw [mean_congr _ (fun x => by rw [regular_value h2, Nat.cast_add]), mean_add, e1, e2]
  congr 1
  ring

/-- The average-case error depends on the first bit used for the topmost carry only. -/
theorem C94_average_case_error (asserts : Bool) (a : ApproxAdder) (n p q : Nat) (h : AdderLegal n p q a)
    (hn : 3 * n ≤ 254) : ∃ f g : List (BDD m), regularAdder n = .ok f ∧
      getApproximateAdder asserts a n p q = .ok g ∧
      averageCaseError .baseTwo f g = .ok ((2 ^ adderStart n p q a n - 1) / 2) ∧
      averageValue g = .ok (2 ^ n - 1 - (2 ^ adderStart n p q a n - 1) / 2) := by
  obtain ⟨f, h1, h2⟩ := regularAdder_spec (m := m) n
  obtain ⟨g, g1, g2⟩ := approximate_ok (m := m) asserts a n p q h
  have hd := mean_dropped (n := n) g2.le g2.mono
  refine ⟨f, g, h1, g1, ?_, ?_⟩
  · rw [C33_average_case_error f g (2 * n) h2.fits g2.fits (by rw [h2.len, g2.len, max_self]; omega), ← hd]
    refine congrArg Except.ok (mean_congr _ fun x => ?_)
    rw [adder_diff h2 g2]
    rfl
  · rw [C31_average_value g (2 * n) (2 * n) g2.fits (fun b hb => supportSize_le_of_fits (g2.fits b hb))
      (by rw [g2.len]; omega)]
    obtain ⟨e1, e2⟩ := mean_op n n (le_refl n)
    have e : ∀ x, (uAt g x : ℚ) = ((opA n x : ℚ) + opB n x) - (dropSum (opA n x) (opB n x) (adderStart n p q a) n : ℚ) :=
      fun x => by
        rw [← Nat.cast_add, ← dropSum_add g2 x]
        simp
    rw [mean_congr _ e, mean_sub, mean_add, e1, e2]
    simp only [dropSum, drops]
    rw [hd]
    congr 1
    ring

/-- Where the window of the topmost carry starts. -/
theorem C94_topmost_start (n p q : Nat) :
    adderStart n p q .aca1 n = n - (p - 1) ∧
    (p ∣ n → 2 ≤ p → 3 ≤ n → adderStart n p q .gda n = n - n / p - q) ∧
    (n / p + 1 ∣ n → 1 ≤ p → p ≤ n → 3 ≤ n → adderStart n p q .aca2 n = n - n / (n / p + 1) - p / 2) ∧
    (p ∣ n - q → p + q < n → adderStart n p q .gear n = n - p - q) := by
  have blk : ∀ d q, d ∣ n → 2 ≤ d → 3 ≤ n → blockStart n (n / d) q n = n - n / d - q := by
    rintro d q ⟨l, rfl⟩ hd hn
    have hl : 0 < l := by
      rcases Nat.eq_zero_or_pos l with rfl | h
      · simp at hn
      · exact h
    rw [Nat.mul_div_cancel_left l (by omega), blockStart, show min (d * l) (d * l - 1) = d * l - 1 by omega]
    have : (d * l - 1) / l = d - 1 := by
      rw [Nat.div_eq_iff hl]
      obtain ⟨e, rfl⟩ : ∃ e, d = e + 1 := ⟨d - 1, by omega⟩
      rw [Nat.add_sub_cancel, Nat.add_mul]
      omega
    rw [this, Nat.sub_mul, Nat.one_mul]
    have h2 : 2 * l ≤ d * l := Nat.mul_le_mul_right l hd
    rw [if_neg]
    by_cases h1 : l = 1
    · subst h1
      omega
    · omega
  refine ⟨rfl, blk p q, fun h1 h2 h3 h4 => blk _ _ h1 (by have := Nat.div_pos h3 h2; omega) h4, ?_⟩
  rintro ⟨c, hc⟩ h
  simp only [adderStart, gearStart]
  rw [show min n (n - 1) = n - 1 by omega, if_neg (by omega)]
  have hp : 0 < p := by
    rcases Nat.eq_zero_or_pos p with rfl | h'
    · simp at hc
      omega
    · exact h'
  have : (n - 1 - (p + q)) % p = p - 1 := by
    have h1 : 2 ≤ c := by
      by_contra hc'
      have : p * c ≤ p * 1 := Nat.mul_le_mul_left p (by omega)
      omega
    obtain ⟨d, rfl⟩ : ∃ d, c = d + 2 := ⟨c - 2, by omega⟩
    have : n - 1 - (p + q) = (p - 1) + p * d := by
      have : p * (d + 2) = p * d + p * 2 := Nat.mul_add _ _ _
      omega
    rw [this, Nat.add_mul_mod_self_left, Nat.mod_eq_of_lt (by omega)]
  rw [this]
  omega

/-- The adder used in `/repo/experiments`: 16 bits, windows of 4. -/
example : AdderLegal 16 4 0 .aca1 ∧ adderStart 16 4 0 .aca1 16 = 13 ∧ AdderLegal 16 4 2 .gda ∧
    adderStart 16 4 2 .gda 16 = 10 ∧ AdderLegal 16 4 4 .gear ∧ adderStart 16 4 4 .gear 16 = 8 ∧
    AdderLegal 16 5 0 .aca2 ∧ adderStart 16 5 0 .aca2 16 = 10 := by
  simp [AdderLegal, adderStart, aca1Start, blockStart, gearStart]

example : (do averageCaseError .baseTwo (← regularAdder (m := .id) 3) (← getApproximateAdder true .aca1 3 2 0)) =
    .ok (3 / 2) := by decide +kernel

/-! ## C95 -/

/-- Bit `i` is wrong in `2 ^ s - 1` out of `2 ^ (i + 1)` cases, where `s` is the first bit used for its carry. -/
theorem C95_average_bit_flip_error (asserts : Bool) (a : ApproxAdder) (n p q : Nat) (h : AdderLegal n p q a)
    (hn : 2 * n ≤ 1023) : ∃ f g : List (BDD m), regularAdder n = .ok f ∧
      getApproximateAdder asserts a n p q = .ok g ∧ averageBitFlipError f g =
        .ok (∑ i ∈ Finset.range (n + 1), ((2 : ℚ) ^ adderStart n p q a i - 1) / 2 ^ (i + 1)) := by
  obtain ⟨f, h1, h2⟩ := regularAdder_spec (m := m) n
  obtain ⟨g, g1, g2⟩ := approximate_ok (m := m) asserts a n p q h
  obtain ⟨r, e1, e2, -⟩ := C40_average_bit_flip_error f g (2 * n) (by rw [h2.len, g2.len]) h2.fits g2.fits hn
  exact ⟨f, g, h1, g1, by rw [e1, e2, mean_hamming h2 g2]⟩

/-- At worst all bits are wrong whose carry does not use all lower bits, and this happens for the operands
11…1 and 00…1. -/
theorem C95_worst_case_bit_flip_error (asserts : Bool) (a : ApproxAdder) (n p q : Nat) (h : AdderLegal n p q a) :
    ∃ f g : List (BDD m), regularAdder n = .ok f ∧ getApproximateAdder asserts a n p q = .ok g ∧
      worstCaseBitFlipError f g = .ok ((Finset.range (n + 1)).filter (fun i => 0 < adderStart n p q a i)).card ∧
      ∀ x, opA n x = 2 ^ n - 1 → opB n x = 1 → hamming (bitsAt f x) (bitsAt g x) =
        ((Finset.range (n + 1)).filter (fun i => 0 < adderStart n p q a i)).card := by
  obtain ⟨f, h1, h2⟩ := regularAdder_spec (m := m) n
  obtain ⟨g, g1, g2⟩ := approximate_ok (m := m) asserts a n p q h
  have hn31 : n < 2 ^ 31 := by cases a <;> exact h.1
  obtain ⟨v, e1, ⟨x, hx⟩, e2⟩ := C39_worst_case_bit_flip_error f g (by rw [h2.len, g2.len]) (by rw [h2.len]; omega)
  have hle : ∀ x, hamming (bitsAt f x) (bitsAt g x) ≤
      ((Finset.range (n + 1)).filter (fun i => 0 < adderStart n p q a i)).card := fun x => by
    rw [h2.hamming g2, Finset.card_filter]
    apply Finset.sum_le_sum
    intro i _
    by_cases hi : 0 < adderStart n p q a i
    · rw [if_pos hi]
      cases (_ && _ : Bool) <;> simp
    · rw [if_neg hi, show adderStart n p q a i = 0 by omega]
      cases carryFrom (opA n x) (opB n x) 0 i <;> simp
  have hx1 : ∀ x, opA n x = 2 ^ n - 1 → opB n x = 1 → hamming (bitsAt f x) (bitsAt g x) =
        ((Finset.range (n + 1)).filter (fun i => 0 < adderStart n p q a i)).card := by
    intro x ha hb
    rw [h2.hamming g2, Finset.card_filter]
    apply Finset.sum_congr rfl
    intro i hi
    rw [Finset.mem_range] at hi
    by_cases hs : 0 < adderStart n p q a i
    · have hle := g2.le i
      rw [if_pos hs, (carry_lost_iff (Nat.zero_le _) hle).mpr]
      · rfl
      · have hbit : ∀ j < n, (opA n x).testBit j = true ∧ (opB n x).testBit j = decide (j = 0) := fun j hj => by
          rw [ha, hb, Nat.testBit_two_pow_sub_one, decide_eq_true hj]
          refine ⟨rfl, ?_⟩
          cases j with
          | zero => rfl
          | succ j => simp [Nat.testBit_succ]
        refine ⟨?_, fun j h3 h4 => ?_⟩
        · rw [carry_pass (t := 1) (by omega) hs (fun j h3 h4 => by
            rw [(hbit j (by omega)).1, (hbit j (by omega)).2]
            simp
            omega)]
          exact carry_generate (le_refl 0) (hbit 0 (by omega)).1 ((hbit 0 (by omega)).2.trans (by simp))
        · rw [(hbit j (by omega)).1, (hbit j (by omega)).2]
          simp
          omega
    · rw [if_neg hs, show adderStart n p q a i = 0 by omega]
      cases carryFrom (opA n x) (opB n x) 0 i <;> simp
  refine ⟨f, g, h1, g1, ?_, hx1⟩
  rw [e1]
  congr 1
  apply le_antisymm
  · rw [← hx]
    exact hle x
  · have hn1 : 1 ≤ n := by
      cases a
      · have := h.2; omega
      · have := h.2; omega
      · have := h.2; omega
      · exact h.2.1
    set y := operandsOf (fun _ => true) (fun i => decide (i = 0)) with hy
    have ya : opA n y = 2 ^ n - 1 := by
      apply Nat.eq_of_testBit_eq
      intro i
      rw [Nat.testBit_two_pow_sub_one]
      by_cases hi : i < n
      · rw [hy, opA_operandsOf _ _ hi, decide_eq_true hi]
      · rw [decide_eq_false hi, Nat.testBit_lt_two_pow]
        exact lt_of_lt_of_le (opA_lt n y) (Nat.pow_le_pow_right (by norm_num) (by omega))
    have yb : opB n y = 1 := by
      apply Nat.eq_of_testBit_eq
      intro i
      by_cases hi : i < n
      · rw [hy, opB_operandsOf _ _ hi]
        cases i with
        | zero => rfl
        | succ j => simp [Nat.testBit_succ]
      · rw [Nat.testBit_lt_two_pow (lt_of_lt_of_le (opB_lt n y) (Nat.pow_le_pow_right (by norm_num) (by omega))),
          Nat.testBit_lt_two_pow (show 1 < 2 ^ i from Nat.one_lt_two_pow (by omega))]
    rw [← hx1 y ya yb]
    exact e2 y

example : (do averageBitFlipError (← regularAdder (m := .id) 3) (← getApproximateAdder true .aca1 3 2 0)) =
      .ok (5 / 16) ∧
    (do worstCaseBitFlipError (← regularAdder (m := .id) 3) (← getApproximateAdder true .aca1 3 2 0)) = .ok 2 ∧
    (∑ i ∈ Finset.range 4, ((2 : ℚ) ^ adderStart 3 2 0 .aca1 i - 1) / 2 ^ (i + 1)) = 5 / 16 ∧
    ((Finset.range 4).filter (fun i => 0 < adderStart 3 2 0 .aca1 i)).card = 2 := by decide +kernel

/-! ## C96 -/

/-- The worst-case error. -/
theorem C96_worst_case_error (asserts : Bool) (a : ApproxAdder) (n p q : Nat) (h : AdderLegal n p q a)
    (hn : n ≤ 254) : ∃ f g : List (BDD m), regularAdder n = .ok f ∧
      getApproximateAdder asserts a n p q = .ok g ∧
      worstCaseError .baseTwo f g = .ok (worstDrop (adderStart n p q a) n) := by
  obtain ⟨f, h1, h2⟩ := regularAdder_spec (m := m) n
  obtain ⟨g, g1, g2⟩ := approximate_ok (m := m) asserts a n p q h
  refine ⟨f, g, h1, g1, ?_⟩
  obtain ⟨w, e1, ⟨x, hx⟩, e2⟩ := C25_worst_case_error_unsigned f g (by rw [h2.len]; omega) (by rw [g2.len]; omega)
  rw [e1]
  congr 1
  apply le_antisymm
  · have := dropSum_le (a := opA n x) (b := opB n x) g2.starts n (le_refl n)
    dsimp only at hx
    rw [adder_diff h2 g2] at hx
    omega
  · obtain ⟨b, hb⟩ := dropSum_attained g2.starts n (le_refl n)
    have := e2 (operandsOf (fun _ => true) b)
    dsimp only at this
    rw [adder_diff h2 g2, hb] at this
    exact_mod_cast this

/-- Almost correct adder 1: carries `p` apart can be dropped together. -/
theorem C96_aca1 (n p q : Nat) (hp : 1 ≤ p) :
    worstDrop (adderStart n p q .aca1) n = ∑ t ∈ Finset.range (n / p), 2 ^ (n - t * p) := by
  have hs : adderStart n p q .aca1 = aca1Start p := rfl
  rw [hs]
  clear hs
  induction n using Nat.strong_induction_on with
  | _ n ih =>
    cases n with
    | zero => simp [worstDrop]
    | succ k =>
      rw [worstDrop_succ (fun k => by unfold aca1Start; omega)]
      by_cases hk : p ≤ k + 1
      · rw [if_pos (by unfold aca1Start; omega), show aca1Start p (k + 1) - 1 = k + 1 - p by unfold aca1Start; omega,
          ih (k + 1 - p) (by omega)]
        have : (k + 1) / p = (k + 1 - p) / p + 1 := by
          rw [Nat.div_eq, if_pos ⟨by omega, hk⟩]
        rw [this, Finset.sum_range_succ', add_comm]
        congr 1
        · apply Finset.sum_congr rfl
          intro t _
          rw [Nat.add_mul, Nat.one_mul]
          congr 1
          omega
        · simp
      · rw [if_neg (by unfold aca1Start; omega), ih k (by omega), Nat.div_eq_of_lt (by omega),
          Nat.div_eq_of_lt (by omega)]
        rfl

theorem blockStart_boundary {n l q k : Nat} (hk : k < n) :
    blockStart n l q k < blockStart n l q (k + 1) ↔ l ∣ k + 1 ∧ 2 ≤ k + 1 ∧ q < k + 1 ∧ k + 1 < n := by
  rcases Nat.eq_zero_or_pos k with rfl | hpos
  · have h1 : blockStart n l q 1 = 0 := by
      unfold blockStart
      have : min 1 (n - 1) / l * l ≤ min 1 (n - 1) := Nat.div_mul_le_self _ _
      rw [if_pos (by omega)]
    rw [show (0 : Nat) + 1 = 1 from rfl, h1]
    omega
  · rw [blockStart_succ hpos hk]
    by_cases hd : (k + 1) % l = 0 ∧ k + 1 ≠ n
    · rw [if_pos hd]
      have hdv := Nat.dvd_of_mod_eq_zero hd.1
      have hle := blockStart_le n l q k
      have : q < k + 1 → blockStart n l q k < k + 1 - q := by
        intro hq
        unfold blockStart
        rw [show min k (n - 1) = k by omega]
        have h2 : k / l * l < k + 1 := by
          have := Nat.div_mul_le_self k l
          omega
        split <;> omega
      constructor
      · intro h
        exact ⟨hdv, by omega, by omega, by omega⟩
      · rintro ⟨-, -, h3, -⟩
        exact this h3
    · rw [if_neg hd]
      constructor
      · intro h
        omega
      · rintro ⟨h1, -, -, h4⟩
        exact absurd ⟨Nat.mod_eq_zero_of_dvd h1, by omega⟩ hd

theorem blockStart_at {n l q k : Nat} (h2 : 2 ≤ k) (hk : k < n) (hd : l ∣ k) : blockStart n l q k = k - q := by
  unfold blockStart
  rw [show min k (n - 1) = k by omega, Nat.div_mul_cancel hd, if_neg (by omega)]

theorem worstDrop_block {n l q : Nat} (hq : q < l) : worstDrop (blockStart n l q) n =
    ∑ k ∈ (Finset.range n).filter (fun k => l ∣ k ∧ 2 ≤ k), 2 ^ k := by
  rw [worstDrop_apart (n := n) ⟨blockStart_le _ _ _, fun k _ => blockStart_mono _ _ _ k⟩ ?_ n (le_refl n)]
  · rw [Finset.sum_filter]
    have e : ∀ i ∈ Finset.range n, (if blockStart n l q i < blockStart n l q (i + 1) then 2 ^ (i + 1) else 0) =
        (fun k => if k < n ∧ l ∣ k ∧ 2 ≤ k then 2 ^ k else 0) (i + 1) := by
      intro i hi
      rw [Finset.mem_range] at hi
      have hb := blockStart_boundary (l := l) (q := q) hi
      dsimp only
      by_cases hc : i + 1 < n ∧ l ∣ i + 1 ∧ 2 ≤ i + 1
      · rw [if_pos hc, if_pos (hb.mpr ⟨hc.2.1, hc.2.2, lt_of_lt_of_le hq (Nat.le_of_dvd (by omega) hc.2.1), hc.1⟩)]
      · rw [if_neg hc, if_neg (fun h => hc ⟨(hb.mp h).2.2.2, (hb.mp h).1, (hb.mp h).2.1⟩)]
    rw [Finset.sum_congr rfl e]
    have h0 := Finset.sum_range_succ' (fun k => if k < n ∧ l ∣ k ∧ 2 ≤ k then 2 ^ k else 0) n
    rw [Finset.sum_range_succ] at h0
    simp only [lt_irrefl, false_and, if_false, add_zero, show ¬ (2 ≤ 0) by omega, and_false] at h0
    rw [← h0]
    apply Finset.sum_congr rfl
    intro k hk
    rw [Finset.mem_range] at hk
    simp [hk]
  · intro i j hij hj h1 h2
    rw [blockStart_boundary (by omega)] at h1
    rw [blockStart_boundary hj] at h2
    rw [blockStart_at h2.2.1 h2.2.2.2 h2.1]
    have : i + 1 + l ≤ j + 1 := by
      have h3 := Nat.le_of_dvd (by omega) (Nat.dvd_sub h2.1 h1.1)
      omega
    omega

/-- Gracefully degrading adder: if fewer bits are used for prediction than a block has, the carries into all
blocks can be dropped together. -/
theorem C96_gda (n p q : Nat) (hq : q < n / p) :
    worstDrop (adderStart n p q .gda) n =
      ∑ k ∈ (Finset.range n).filter (fun k => n / p ∣ k ∧ 2 ≤ k), 2 ^ k :=
  worstDrop_block hq

theorem C96_aca2 (n p q : Nat) (hq : p / 2 < n / (n / p + 1)) :
    worstDrop (adderStart n p q .aca2) n =
      ∑ k ∈ (Finset.range n).filter (fun k => n / (n / p + 1) ∣ k ∧ 2 ≤ k), 2 ^ k :=
  worstDrop_block hq

theorem gearStart_boundary {n res prev k : Nat} (hr : 1 ≤ res) (hk : k < n) :
    gearStart n res prev k < gearStart n res prev (k + 1) ↔
      res + prev ≤ k + 1 ∧ (k + 1 - (res + prev)) % res = 0 ∧ k + 1 < n := by
  by_cases hb : res + prev ≤ k + 1
  · rw [gearStart_succ hb hk]
    split_ifs with hc
    · have : gearStart n res prev k < k + 1 - prev := by
        unfold gearStart
        split <;> omega
      constructor
      · intro _
        exact ⟨hb, hc.1, by omega⟩
      · intro _
        exact this
    · constructor
      · intro h
        omega
      · rintro ⟨-, h2, h3⟩
        exact absurd ⟨h2, by omega⟩ hc
  · constructor
    · intro h
      have h0 : gearStart n res prev (k + 1) = 0 := by
        unfold gearStart
        rw [if_pos (by omega)]
      omega
    · rintro ⟨h1, -⟩
      exact absurd h1 hb

/-- Generic accuracy configurable adder: if fewer bits are used for prediction than each sub adder contributes,
the carries into all sub adders can be dropped together. -/
theorem C96_gear (n p q : Nat) (hq : q < p) : worstDrop (adderStart n p q .gear) n =
    ∑ k ∈ (Finset.range n).filter (fun k => p + q ≤ k ∧ (k - (p + q)) % p = 0), 2 ^ k := by
  have hs : adderStart n p q .gear = gearStart n p q := rfl
  rw [hs, worstDrop_apart (n := n) ⟨gearStart_le _ _ _, fun k hk => gearStart_mono hk⟩ ?_ n (le_refl n)]
  · rw [Finset.sum_filter]
    have e : ∀ i ∈ Finset.range n, (if gearStart n p q i < gearStart n p q (i + 1) then 2 ^ (i + 1) else 0) =
        (fun k => if k < n ∧ p + q ≤ k ∧ (k - (p + q)) % p = 0 then 2 ^ k else 0) (i + 1) := by
      intro i hi
      rw [Finset.mem_range] at hi
      have hb := gearStart_boundary (n := n) (res := p) (prev := q) (by omega) hi
      dsimp only
      by_cases hc : i + 1 < n ∧ p + q ≤ i + 1 ∧ (i + 1 - (p + q)) % p = 0
      · rw [if_pos hc, if_pos (hb.mpr ⟨hc.2.1, hc.2.2, hc.1⟩)]
      · rw [if_neg hc, if_neg (fun h => hc ⟨(hb.mp h).2.2, (hb.mp h).1, (hb.mp h).2.1⟩)]
    rw [Finset.sum_congr rfl e]
    have h0 := Finset.sum_range_succ' (fun k => if k < n ∧ p + q ≤ k ∧ (k - (p + q)) % p = 0 then 2 ^ k else 0) n
    rw [Finset.sum_range_succ] at h0
    simp only [lt_irrefl, false_and, if_false, add_zero, show ¬ (p + q ≤ 0) by omega, and_false] at h0
    rw [← h0]
    apply Finset.sum_congr rfl
    intro k hk
    rw [Finset.mem_range] at hk
    simp [hk]
  · intro i j hij hj h1 h2
    rw [gearStart_boundary (by omega) (by omega)] at h1
    have h2' := (gearStart_boundary (by omega) hj).mp h2
    rw [gearStart_succ h2'.1 hj, if_pos ⟨h2'.2.1, by omega⟩]
    have : i + 1 + p ≤ j + 1 := by
      have h3 := Nat.le_of_dvd (by omega) (Nat.dvd_sub (Nat.dvd_of_mod_eq_zero h2'.2.1)
        (Nat.dvd_of_mod_eq_zero h1.2.1))
      omega
    omega

example : (do worstCaseError .baseTwo (← regularAdder (m := .id) 4) (← getApproximateAdder true .aca1 4 2 0)) =
      .ok 20 ∧ (∑ t ∈ Finset.range (4 / 2), 2 ^ (4 - t * 2)) = 20 ∧
    (∑ k ∈ (Finset.range 16).filter (fun k => 16 / 4 ∣ k ∧ 2 ≤ k), 2 ^ k) = 16 + 256 + 4096 := by
  decide +kernel

/-! ## C97 -/

/-- The error rate. -/
theorem C97_error_rate (asserts : Bool) (a : ApproxAdder) (n p q : Nat) (h : AdderLegal n p q a)
    (hn : 2 * n ≤ 1024) : ∃ f g : List (BDD m), regularAdder n = .ok f ∧
      getApproximateAdder asserts a n p q = .ok g ∧
      errorRate f g = .ok (1 - (cleanRates (adderStart n p q a) n).getD n 0) := by
  obtain ⟨f, h1, h2⟩ := regularAdder_spec (m := m) n
  obtain ⟨g, g1, g2⟩ := approximate_ok (m := m) asserts a n p q h
  refine ⟨f, g, h1, g1, ?_⟩
  obtain ⟨r, e1, e2, -⟩ := C35_error_rate f g (2 * n) (by rw [h2.len, g2.len]) h2.fits g2.fits hn
  rw [e1, e2, cleanRates_eq g2.starts n (le_refl n) n (le_refl n)]
  have e : ∀ x, (if bitsAt f x = bitsAt g x then (0 : ℚ) else 1) =
      1 - ind (clean (opA n x) (opB n x) (adderStart n p q a) n) := fun x => by
    by_cases hc : clean (opA n x) (opB n x) (adderStart n p q a) n = true
    · rw [if_pos ((adder_bits_eq h2 g2 x).mpr hc), hc]
      simp
    · rw [if_neg (fun h => hc ((adder_bits_eq h2 g2 x).mp h))]
      rw [Bool.not_eq_true] at hc
      rw [hc]
      simp
  rw [mean_congr _ e, mean_sub, mean_const]

/-- Almost correct adder 1: how often it is exact, as a recurrence in the length.  It is `1` below the window, and
from then on a string "generate, `p - 1` times propagate" must not occur. -/
theorem C97_aca1 (p q : Nat) (hp : 1 ≤ p) (n k : Nat) (hk : k ≤ n) :
    (cleanRates (adderStart n p q .aca1) n).getD k 0 = (cleanRates (adderStart n p q .aca1) k).getD k 0 ∧
    (k < p → (cleanRates (adderStart n p q .aca1) n).getD k 0 = 1) ∧
    (p ≤ k → (cleanRates (adderStart n p q .aca1) n).getD k 0 =
      (cleanRates (adderStart n p q .aca1) n).getD (k - 1) 0 -
        (cleanRates (adderStart n p q .aca1) n).getD (k - p) 0 / 2 ^ (p + 1)) := by
  have hst : ∀ j, Starts (adderStart n p q .aca1) j := fun j =>
    ⟨fun k => by simp only [adderStart, aca1Start]; omega, fun k _ => by simp only [adderStart, aca1Start]; omega⟩
  have hv := cleanRates_eq (hst n) n (le_refl n)
  have hstep : ∀ j < n, p ≤ j + 1 → (cleanRates (adderStart n p q .aca1) n).getD (j + 1) 0 =
      (cleanRates (adderStart n p q .aca1) n).getD j 0 -
        (cleanRates (adderStart n p q .aca1) n).getD (j + 1 - p) 0 / 2 ^ (p + 1) := by
    intro j hj hpj
    rw [hv _ (by omega), hv _ (by omega), hv _ (by omega), mean_clean_succ (hst n) hj]
    congr 1
    have : Finset.Ico (adderStart n p q .aca1 j) (adderStart n p q .aca1 (j + 1)) = {j + 1 - p} := by
      ext i
      simp only [adderStart, aca1Start, Finset.mem_Ico, Finset.mem_singleton]
      omega
    rw [this, Finset.sum_singleton, show j - (j + 1 - p) + 2 = p + 1 by omega]
  refine ⟨?_, ?_, ?_⟩
  · rw [hv k hk, cleanRates_eq (hst n) k hk k (le_refl k)]
  · intro hkp
    induction k with
    | zero => rw [hv 0 (by omega)]; simp [clean, mean_const]
    | succ k ih =>
      rw [hv _ hk, mean_clean_succ (hst n) (by omega), ← hv k (by omega), ih (by omega) (by omega),
        show Finset.Ico (adderStart n p q .aca1 k) (adderStart n p q .aca1 (k + 1)) = ∅ by
          ext i
          simp only [adderStart, aca1Start, Finset.mem_Ico, Finset.notMem_empty, iff_false]
          omega]
      simp
  · intro hpk
    obtain ⟨j, rfl⟩ : ∃ j, k = j + 1 := ⟨k - 1, by omega⟩
    exact hstep j (by omega) hpk

example : (do errorRate (← regularAdder (m := .id) 3) (← getApproximateAdder true .aca1 3 2 0)) = .ok (1 / 4) ∧
    cleanRates (adderStart 3 2 0 .aca1) 3 = [1, 1, 7 / 8, 3 / 4] := by decide +kernel

end Verif

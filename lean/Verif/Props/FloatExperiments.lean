import Verif.Proofs.FloatExperiments
import Verif.Props.FloatBucket
import Verif.Props.FloatMetrics
import Verif.Props.Minimize

/-! # C110 the minimisation on `double`s -/

namespace Verif

variable {m : Mgr} {rnd dec cv : ℚ → ℚ}

/-! ## The metrics handed to the search -/

theorem isDouble_mean {N n : Nat} {e : ℚ} {j : Nat} (hj : e = j / 2 ^ N) (h1 : e ≤ 2 ^ n) (hs : N + n ≤ 53) :
    IsDouble e := by
  rw [hj]
  refine isDouble_nat_div j N ?_ (by omega)
  rw [hj, div_le_iff₀ (by positivity)] at h1
  have : j ≤ 2 ^ n * 2 ^ N := by exact_mod_cast h1
  rw [← pow_add] at this
  exact this.trans (Nat.pow_le_pow_right (by norm_num) (by omega))

/-- For small functions nothing is lost: the values are those of the exact metrics. -/
theorem C110_metric_exact (hr : Nearest rnd) (hd : Dec100 dec) (hc : DecToDouble rnd cv) (N : Nat) (f g : List (BDD m))
    (hl : f.length = g.length) (hf : Fits N f) (hg : Fits N g) (hne : f ≠ []) (hs : N + f.length ≤ 53) (met : ErrorMetric)
    (hmet : met ∈ [ErrorMetric.worstCase, .averageCase, .errorRate, .averageBitFlip, .worstCaseBitFlip]) :
    metricFunctionF rnd dec cv met f g = metricFunction met f g := by
  have hlen1 : 1 ≤ f.length := List.length_pos_iff.mpr hne
  have hpow : (2 : ℚ) ^ f.length ≤ 2 ^ 53 := pow_le_pow_right₀ (by norm_num) (by omega)
  have hrange : MetricRange m N f.length met := by
    simp only [List.mem_cons, List.not_mem_nil, or_false] at hmet
    rcases hmet with rfl | rfl | rfl | rfl | rfl <;> simp only [MetricRange] <;> omega
  have hms : met ≠ .meanSquared := by
    rintro rfl
    simp at hmet
  obtain ⟨e, he, hm⟩ := C75_metric_function_partial N f g met hl hf hg hrange hms
  obtain ⟨he0, he1⟩ := isMetric_range hl hms hm
  rw [he]
  simp only [List.mem_cons, List.not_mem_nil, or_false] at hmet
  rcases hmet with rfl | rfl | rfl | rfl | rfl
  · simp only [metricFunction] at he
    obtain ⟨v, hv, he⟩ := bind_ok he
    cases he
    simp only [metricFunctionF, hv, bind, Except.bind]
    rw [hr.small v]
    have : ((v : Nat) : ℚ) ≤ 2 ^ 53 := he1.trans hpow
    exact_mod_cast this
  · have hm' : e = mean N (absErrAt f g) := hm
    obtain ⟨q, h1, -, -, h2, -⟩ := C98_average_case_error hr hd f g N hf hg (by rw [← hl, max_self]; omega) e hm'
    obtain ⟨j, hj⟩ := mean_absErrAt N f g
    simp only [metricFunctionF, h1, bind, Except.bind]
    rw [hc.back hr (isDouble_mean (hm'.trans hj) he1 hs) he0
      ((he1.trans hpow).trans (pow_le_pow_right₀ (by norm_num) (by norm_num))) (h2 (by omega))]
  · have hm' : e = mean N _ := hm
    obtain ⟨q, h1, -, -, -, -, h2, -⟩ := C98_error_rate hr f g N hl hf hg (by omega) e hm'
    simp only [metricFunctionF, h1, h2 (by omega)]
  · have hm' : e = mean N _ := hm
    obtain ⟨q, h1, -, -, h2, -⟩ := C98_average_bit_flip_error hr f g N hl hf hg (by omega) (by omega) e hm'
    have hle : f.length * 2 ^ N ≤ 2 ^ 53 := by
      calc f.length * 2 ^ N ≤ 2 ^ f.length * 2 ^ N := Nat.mul_le_mul_right _ Nat.lt_two_pow_self.le
        _ = 2 ^ (N + f.length) := by rw [← pow_add, Nat.add_comm]
        _ ≤ 2 ^ 53 := Nat.pow_le_pow_right (by norm_num) hs
    simp only [metricFunctionF, h1, h2 hle (by omega)]
  · exact he

/-- Error rates, average errors and average numbers of bit flips are off by a few units in the last place of a `double`
for each variable and bit. -/
theorem C110_metric_near (hr : Nearest rnd) (hd : Dec100 dec) (hc : DecToDouble rnd cv) (N : Nat) (f g : List (BDD m))
    (hl : f.length = g.length) (hf : Fits N f) (hg : Fits N g) (met : ErrorMetric)
    (hmet : met ∈ [ErrorMetric.averageCase, .errorRate, .averageBitFlip]) (hN : N ≤ 1000) (hn : f.length ≤ 1000)
    (hrange : MetricRange m N f.length met) :
    ∃ q e, metricFunctionF rnd dec cv met f g = .ok q ∧ IsMetric N f g met e ∧ 0 ≤ q ∧
      |q - e| ≤ (N + f.length + 2) / 2 ^ 52 * e := by
  have hms : met ≠ .meanSquared := by
    rintro rfl
    simp at hmet
  obtain ⟨e, -, hm⟩ := C75_metric_function_partial N f g met hl hf hg hrange hms
  obtain ⟨he0, he1⟩ := isMetric_range hl hms hm
  have hNq : (0 : ℚ) ≤ N := Nat.cast_nonneg N
  have hnq : (0 : ℚ) ≤ f.length := Nat.cast_nonneg _
  have up : ∀ {q δ : ℚ}, |q - e| ≤ δ * e → δ ≤ (N + f.length + 2) / 2 ^ 52 → |q - e| ≤ (N + f.length + 2) / 2 ^ 52 * e :=
    fun h h' => h.trans (mul_le_mul_of_nonneg_right h' he0)
  simp only [List.mem_cons, List.not_mem_nil, or_false] at hmet
  rcases hmet with rfl | rfl | rfl
  · have hm' : e = mean N (absErrAt f g) := hm
    have hrange' : f.length + 1 + N ≤ 256 := hrange
    obtain ⟨v, h1, h0, h2, -, h3⟩ := C98_average_case_error hr hd f g N hf hg (by rw [← hl, max_self]; exact hrange') e hm'
    obtain ⟨j, hj⟩ := mean_absErrAt N f g
    rw [← hm'] at hj
    simp only [metricFunctionF, h1, bind, Except.bind]
    have hNq' : (N : ℚ) ≤ 256 := by exact_mod_cast (show N ≤ 256 by omega)
    have he1' : e ≤ 2 ^ 256 := he1.trans (pow_le_pow_right₀ (by norm_num) (by omega))
    set ε : ℚ := N / 2 ^ 52 + 1 / 10 ^ 98 with hε
    have hε0 : 0 ≤ ε := by rw [hε]; positivity
    have hε1 : ε ≤ 1 / 2 ^ 43 := by
      rw [hε]
      have : (N : ℚ) / 2 ^ 52 ≤ 256 / 2 ^ 52 := div_le_div_of_nonneg_right hNq' (by norm_num)
      have h5 : (256 : ℚ) / 2 ^ 52 + 1 / 10 ^ 98 ≤ 1 / 2 ^ 43 := by norm_num
      linarith only [this, h5]
    have h2' := abs_le.mp h2
    have hv1 : v ≤ e * (1 + ε) := by linarith only [h2'.2]
    have hv2 : e * (1 - ε) ≤ v := by linarith only [h2'.1]
    have hvup : v ≤ e * 2 := hv1.trans (mul_le_mul_of_nonneg_left (by linarith only [hε1]) he0)
    have hvb : |v| ≤ 2 ^ 1000 := by
      rw [abs_of_nonneg h0]
      calc v ≤ e * 2 := hvup
        _ ≤ 2 ^ 256 * 2 := mul_le_mul_of_nonneg_right he1' (by norm_num)
        _ = 2 ^ 257 := (pow_succ _ _).symm
        _ ≤ 2 ^ 1000 := pow_le_big (by norm_num)
    obtain ⟨q', c1, c2⟩ := hc.conv v hvb
    rw [abs_of_nonneg h0] at c1
    rw [c2]
    rcases Nat.eq_zero_or_pos j with hj0 | hj0
    · have e0 : e = 0 := by rw [hj, hj0]; simp
      have v0 : v = 0 := by
        rw [e0, zero_mul] at hvup
        exact le_antisymm hvup h0
      rw [v0, zero_div, sub_zero] at c1
      rw [abs_eq_zero.mp (le_antisymm c1 (abs_nonneg _)),
        hr.exact isDouble_zero (by rw [abs_zero]; exact pow_nonneg (by norm_num) _)]
      exact ⟨0, e, rfl, hm, le_refl _, by rw [e0]; simp⟩
    · have hel : (1 : ℚ) / 2 ^ 256 ≤ e := by
        rw [hj]
        have h6 : (1 : ℚ) / 2 ^ 256 ≤ 1 / 2 ^ N := one_div_le_one_div_of_le (by positivity) (pow_le_big (by omega))
        refine h6.trans (div_le_div_of_nonneg_right ?_ (by positivity))
        exact_mod_cast hj0
      have hepos : 0 < e := lt_of_lt_of_le (by norm_num) hel
      have c1' := abs_le.mp c1
      have hq1 : q' ≤ v * (1 + 1 / 10 ^ 17) := by linarith only [c1'.2]
      have hq2 : v * (1 - 1 / 10 ^ 17) ≤ q' := by linarith only [c1'.1]
      have hq3 : q' ≤ e * ((1 + ε) * (1 + 1 / 10 ^ 17)) := by
        rw [← mul_assoc]
        exact hq1.trans (mul_le_mul_of_nonneg_right hv1 (by norm_num))
      have hq4 : e * ((1 - ε) * (1 - 1 / 10 ^ 17)) ≤ q' := by
        rw [← mul_assoc]
        exact (mul_le_mul_of_nonneg_right hv2 (by norm_num)).trans hq2
      have hq5 : 1 / 2 ^ 1022 ≤ q' := by
        have h7 : (1 : ℚ) / 2 ≤ (1 - ε) * (1 - 1 / 10 ^ 17) := by linarith only [hε1, hε0]
        have h8 : (1 : ℚ) / 2 ^ 256 * (1 / 2) ≤ q' :=
          (mul_le_mul hel h7 (by norm_num) he0).trans hq4
        refine le_trans ?_ h8
        rw [one_div_mul_one_div, ← pow_succ]
        exact one_div_le_one_div_of_le (pow_pos (by norm_num) _) (pow_le_big (by norm_num))
      have hq6 : q' ≤ 2 ^ 1022 := by
        have h7 : (1 + ε) * (1 + 1 / 10 ^ 17) ≤ 4 := by linarith only [hε1, hε0]
        calc q' ≤ e * ((1 + ε) * (1 + 1 / 10 ^ 17)) := hq3
          _ ≤ 2 ^ 256 * 4 := mul_le_mul he1' h7 (mul_nonneg (add_nonneg (by norm_num) hε0) (by norm_num))
            (pow_nonneg (by norm_num) _)
          _ = 2 ^ 258 := by rw [show (4 : ℚ) = 2 ^ 2 by norm_num, ← pow_add]
          _ ≤ 2 ^ 1022 := pow_le_big (by norm_num)
      have hrel := abs_le.mp (hr.rel hq5 hq6)
      set y := rnd q' with hy
      have hy1 : y ≤ q' * (1 + 1 / 2 ^ 53) := by linarith only [hrel.2]
      have hy2 : q' * (1 - 1 / 2 ^ 53) ≤ y := by linarith only [hrel.1]
      have hy3 : y ≤ e * ((1 + ε) * (1 + 1 / 10 ^ 17) * (1 + 1 / 2 ^ 53)) := by
        rw [← mul_assoc]
        exact hy1.trans (mul_le_mul_of_nonneg_right hq3 (by norm_num))
      have hy4 : e * ((1 - ε) * (1 - 1 / 10 ^ 17) * (1 - 1 / 2 ^ 53)) ≤ y := by
        rw [← mul_assoc]
        exact (mul_le_mul_of_nonneg_right hq4 (by norm_num)).trans hy2
      refine ⟨y, e, rfl, hm, le_trans (mul_nonneg he0 ?_) hy4, ?_⟩
      · exact mul_nonneg (mul_nonneg (by linarith only [hε1]) (by norm_num)) (by norm_num)
      · have hδ : ε + 1 / 2 ^ 52 ≤ (N + f.length + 2) / 2 ^ 52 := by
          rw [hε]
          have h9 : (1 : ℚ) / 10 ^ 98 ≤ 1 / 2 ^ 52 := by norm_num
          have e9 : ((N : ℚ) + f.length + 2) / 2 ^ 52 = N / 2 ^ 52 + f.length / 2 ^ 52 + 1 / 2 ^ 52 + 1 / 2 ^ 52 := by ring
          have h10 : (0 : ℚ) ≤ f.length / 2 ^ 52 := div_nonneg hnq (by norm_num)
          linarith only [h9, e9, h10]
        have k1 : (1 + ε) * (1 + 1 / 10 ^ 17) * (1 + 1 / 2 ^ 53) ≤ 1 + (ε + 1 / 2 ^ 52) := by linarith only [hε1, hε0]
        have k2 : 1 - (ε + 1 / 2 ^ 52) ≤ (1 - ε) * (1 - 1 / 10 ^ 17) * (1 - 1 / 2 ^ 53) := by linarith only [hε1, hε0]
        refine up (δ := ε + 1 / 2 ^ 52) (abs_le.mpr ⟨?_, ?_⟩) hδ
        · have := mul_le_mul_of_nonneg_left k2 he0
          linarith only [this, hy4]
        · have := mul_le_mul_of_nonneg_left k1 he0
          linarith only [this, hy3]
  · have hm' : e = mean N _ := hm
    have hne : f ≠ [] := by
      rintro rfl
      have : 1 ≤ ([] : List (BDD m)).length := hrange.1
      simp at this
    obtain ⟨q, h1, -, h0, -, h2, -⟩ := C98_error_rate hr f g N hl hf hg hN e hm'
    exact ⟨q, e, h1, hm, h0, up h2 (div_le_div_of_nonneg_right (by linarith only [hnq]) (by norm_num))⟩
  · have hm' : e = mean N _ := hm
    obtain ⟨q, h1, h0, h2, -⟩ := C98_average_bit_flip_error hr f g N hl hf hg hN hn e hm'
    exact ⟨q, e, h1, hm, h0, up h2 (div_le_div_of_nonneg_right (by linarith only []) (by norm_num))⟩

theorem Nearest.mono (h : Nearest rnd) {a b : ℚ} (ha : |a| ≤ 2 ^ 1023) (hb : |b| ≤ 2 ^ 1023) (hab : a ≤ b) :
    rnd a ≤ rnd b := by
  rcases le_total b (rnd a) with h1 | h1
  · rcases hab.eq_or_lt with rfl | hlt
    · exact le_refl _
    · have h2 := h.near b _ hb (h.isDouble a ha)
      have h3 := h.near a _ ha (h.isDouble b hb)
      rw [abs_of_nonneg (sub_nonneg.mpr h1)] at h2
      rw [abs_of_nonneg (sub_nonneg.mpr (hab.trans h1))] at h3
      by_contra hc
      rw [not_le] at hc
      have h4 := (abs_le.mp h2).1
      have h5 : |rnd b - a| < rnd a - a := by
        rw [abs_lt]
        exact ⟨by linarith only [h4, hlt], by linarith only [hc]⟩
      linarith only [h3, h5]
  · exact h.le_rnd hb (h.isDouble a ha) h1

/-- `worst_case_error_percent` is off by at most two units in the last place, and at most 1; the largest error gives 1
and only equal functions give 0. Up to 53 bits only the division rounds. -/
theorem C110_percent (hr : Nearest rnd) (f g : List (BDD m)) (hl : f.length = g.length) (hne : f ≠ [])
    (hlen : f.length ≤ 255) :
    ∃ q e, worstCaseErrorPercentF rnd .baseTwo f g = .ok q ∧ IsMax (fun x => absErrAt f g x / (2 ^ f.length - 1)) e ∧
      0 ≤ q ∧ q ≤ 1 ∧ |q - e| ≤ 2 / 2 ^ 52 * e ∧ (f.length ≤ 53 → |q - e| ≤ 1 / 2 ^ 53 * e) ∧
      (q = 0 ↔ ∀ x, uAt f x = uAt g x) ∧ (e = 1 → q = 1) := by
  obtain ⟨w, hw, ⟨y, hy⟩, hmax⟩ := worstCaseError_baseTwo f g hlen (by omega)
  have hn : 0 < f.length := List.length_pos_iff.mpr hne
  obtain ⟨P, hP⟩ : ∃ P : Nat, P = 2 ^ f.length - 1 := ⟨_, rfl⟩
  have hP1 : 1 ≤ P := by
    have : 2 ^ 1 ≤ 2 ^ f.length := Nat.pow_le_pow_right (by norm_num) hn
    omega
  have hPq : ((2 : ℚ) ^ f.length - 1) = P := by
    rw [hP, Nat.cast_sub Nat.one_le_two_pow]
    norm_num
  have hwP : w ≤ P := by
    have h1 := uAt_lt f y
    have h2 := uAt_lt g y
    rw [← hl] at h2
    have h3 : (w : Int) ≤ P := by
      simp only at hy
      rw [← hy, hP, abs_le]
      omega
    exact_mod_cast h3
  have hPbig : (P : ℚ) ≤ 2 ^ 255 := by
    rw [← hPq]
    exact (sub_le_self _ zero_le_one).trans (pow_le_big hlen)
  have hwq : (w : ℚ) ≤ P := by exact_mod_cast hwP
  have hP0 : (1 : ℚ) ≤ P := by exact_mod_cast hP1
  have hw0 : (0 : ℚ) ≤ w := Nat.cast_nonneg w
  have habs : ∀ {q : ℚ}, 0 ≤ q → q ≤ P → |q| ≤ 2 ^ 1023 := fun h0 h1 => by
    rw [abs_of_nonneg h0]
    exact (h1.trans hPbig).trans (pow_le_big (by norm_num))
  have d1 : IsDouble (1 : ℚ) := by simpa using isDouble_small 1 (by norm_num)
  have hmono := hr.mono (habs hw0 hwq) (habs (by linarith only [hP0]) le_rfl) hwq
  have hrP : 1 ≤ rnd (P : ℚ) := hr.le_rnd (habs (by linarith only [hP0]) le_rfl) d1 hP0
  have hrw : 0 ≤ rnd (w : ℚ) := hr.nonneg hw0 ((hwq.trans hPbig).trans (pow_le_big (by norm_num)))
  have hrP0 : (0 : ℚ) < rnd (P : ℚ) := by linarith only [hrP]
  have hq0 : 0 ≤ rnd (w : ℚ) / rnd (P : ℚ) := div_nonneg hrw hrP0.le
  have hq1 : rnd (w : ℚ) / rnd (P : ℚ) ≤ 1 := (div_le_one hrP0).mpr hmono
  have hqb : |rnd (w : ℚ) / rnd (P : ℚ)| ≤ 2 ^ 1023 := by
    rw [abs_of_nonneg hq0]
    exact hq1.trans (le_trans (by norm_num) (pow_le_big (show 0 ≤ 1023 by norm_num)))
  have hrun : worstCaseErrorPercentF rnd .baseTwo f g = .ok (rnd (rnd (w : ℚ) / rnd (P : ℚ))) := by
    simp only [worstCaseErrorPercentF, hw, pow2, show ¬ f.length ≥ 1024 by omega, if_false, bind, Except.bind, hPq, fdiv,
      hrP0.ne']
  have hM : IsMax (fun x => absErrAt f g x / (2 ^ f.length - 1)) ((w : ℚ) / P) := by
    rw [hPq]
    refine ⟨⟨y, ?_⟩, fun x => div_le_div_of_nonneg_right ?_ (by linarith only [hP0])⟩
    · simp only at hy
      simp only [absErrAt, hy]
      norm_num
    · have := hmax x
      simp only at this
      rw [absErrAt]
      exact_mod_cast this
  have hPpos : (0 : ℚ) < P := by linarith only [hP0]
  have hzero : w = 0 ↔ ∀ x, uAt f x = uAt g x := by
    constructor
    · intro h0 x
      have := hmax x
      simp only [h0] at this
      have h5 := abs_nonneg ((uAt f x : Int) - uAt g x)
      have := abs_eq_zero.mp (le_antisymm this h5)
      omega
    · intro h
      simp only [h y, sub_self, abs_zero] at hy
      exact_mod_cast hy.symm
  have hq1' := hr.rnd_le hqb d1 hq1
  have hq0' : 0 ≤ rnd (rnd (w : ℚ) / rnd (P : ℚ)) := hr.le_rnd hqb isDouble_zero hq0
  refine ⟨_, (w : ℚ) / P, hrun, hM, hq0', hq1', ?_⟩
  rcases Nat.eq_zero_or_pos w with hz | hpos
  · have e0 : rnd (rnd (w : ℚ) / rnd (P : ℚ)) = 0 := by
      have r0 : rnd 0 = 0 := hr.exact isDouble_zero (by rw [abs_zero]; exact pow_nonneg (by norm_num) _)
      rw [hz, Nat.cast_zero, r0, zero_div, r0]
    have e1 : (w : ℚ) / P = 0 := by rw [hz, Nat.cast_zero, zero_div]
    rw [e0, e1]
    refine ⟨by simp, fun _ => by simp, ⟨fun _ => hzero.mp hz, fun _ => rfl⟩, fun h => by norm_num at h⟩
  · have hw1 : (1 : ℚ) ≤ w := by exact_mod_cast hpos
    have low : (1 : ℚ) / 2 ^ 1022 ≤ 1 := by
      rw [div_le_one (pow_pos (by norm_num) _)]
      exact one_le_pow₀ (by norm_num)
    have rw1 := abs_le.mp (hr.rel (low.trans hw1) ((hwq.trans hPbig).trans (pow_le_big (by norm_num))))
    have rP1 := abs_le.mp (hr.rel (low.trans hP0) (hPbig.trans (pow_le_big (by norm_num))))
    have hrw1 : 1 ≤ rnd (w : ℚ) := hr.le_rnd (habs hw0 hwq) d1 hw1
    have hPup : rnd (P : ℚ) ≤ 2 ^ 256 :=
      hr.rnd_le (habs hPpos.le le_rfl) (isDouble_two_pow (by norm_num)) (hPbig.trans (pow_le_big (by norm_num)))
    have hqlow : 1 / 2 ^ 1022 ≤ rnd (w : ℚ) / rnd (P : ℚ) := by
      rw [le_div_iff₀ hrP0, div_mul_eq_mul_div, one_mul, div_le_iff₀ (pow_pos (by norm_num) _)]
      calc rnd (P : ℚ) ≤ 2 ^ 256 := hPup
        _ ≤ 2 ^ 1022 := pow_le_big (by norm_num)
        _ ≤ rnd (w : ℚ) * 2 ^ 1022 := le_mul_of_one_le_left (pow_nonneg (by norm_num) _) hrw1
    have rq := abs_le.mp (hr.rel hqlow (hq1.trans (le_trans (by norm_num) (pow_le_big (show 0 ≤ 1022 by norm_num)))))
    have hqpos : 0 < rnd (rnd (w : ℚ) / rnd (P : ℚ)) := by
      have h6 : 0 < rnd (w : ℚ) / rnd (P : ℚ) := div_pos (by linarith only [hrw1]) hrP0
      linarith only [rq.1, h6]
    set W := rnd (w : ℚ)
    set R := rnd (P : ℚ)
    set Q := rnd (W / R)
    set e := (w : ℚ) / P with he
    have hePw : e * P = w := div_mul_cancel₀ _ hPpos.ne'
    have hepos : 0 < e := div_pos (by linarith only [hw1]) hPpos
    obtain ⟨u, hu⟩ : ∃ u : ℚ, u = 1 / 2 ^ 53 := ⟨_, rfl⟩
    have hu0 : 0 < u := by rw [hu]; norm_num
    have hu1 : u ≤ 1 / 1000 := by rw [hu]; norm_num
    have h52 : (2 : ℚ) / 2 ^ 52 = 4 * u := by rw [hu]; norm_num
    rw [← hu] at rw1 rP1 rq
    rw [h52]
    refine ⟨?_, fun h53 => ?_, ⟨fun h => absurd h hqpos.ne', fun h => ?_⟩, fun h => ?_⟩
    · -- Q / e between (1-u)^2/(1+u) and (1+u)^2/(1-u)
      have a1 : W / R ≤ e * ((1 + u) / (1 - u)) := by
        rw [div_le_iff₀ hrP0]
        have h1 : P * (1 - u) ≤ R := by linarith only [rP1.1]
        have h2 : e * ((1 + u) / (1 - u)) * (P * (1 - u)) ≤ e * ((1 + u) / (1 - u)) * R :=
          mul_le_mul_of_nonneg_left h1 (mul_nonneg hepos.le (div_nonneg (by linarith only [hu0]) (by linarith only [hu1])))
        refine le_trans ?_ h2
        have h3 : e * ((1 + u) / (1 - u)) * (P * (1 - u)) = e * P * (1 + u) := by
          have : (1 : ℚ) - u ≠ 0 := by linarith only [hu1]
          field_simp
        rw [h3, hePw]
        linarith only [rw1.2]
      have a2 : e * ((1 - u) / (1 + u)) ≤ W / R := by
        rw [le_div_iff₀ hrP0]
        have h1 : R ≤ P * (1 + u) := by linarith only [rP1.2]
        have h2 : e * ((1 - u) / (1 + u)) * R ≤ e * ((1 - u) / (1 + u)) * (P * (1 + u)) :=
          mul_le_mul_of_nonneg_left h1 (mul_nonneg hepos.le (div_nonneg (by linarith only [hu1]) (by linarith only [hu0])))
        refine h2.trans ?_
        have h3 : e * ((1 - u) / (1 + u)) * (P * (1 + u)) = e * P * (1 - u) := by
          have : (1 : ℚ) + u ≠ 0 := by linarith only [hu0]
          field_simp
        rw [h3, hePw]
        linarith only [rw1.1]
      have b1 : (1 + u) / (1 - u) * (1 + u) ≤ 1 + 4 * u := by
        rw [div_mul_eq_mul_div, div_le_iff₀ (by linarith only [hu1])]
        nlinarith only [hu0, hu1]
      have b2 : 1 - 4 * u ≤ (1 - u) / (1 + u) * (1 - u) := by
        rw [div_mul_eq_mul_div, le_div_iff₀ (by linarith only [hu0])]
        nlinarith only [hu0, hu1]
      have c1 : W / R * (1 + u) ≤ e * ((1 + u) / (1 - u)) * (1 + u) :=
        mul_le_mul_of_nonneg_right a1 (by linarith only [hu0])
      have c2 : e * ((1 - u) / (1 + u)) * (1 - u) ≤ W / R * (1 - u) :=
        mul_le_mul_of_nonneg_right a2 (by linarith only [hu1])
      have d1 := mul_le_mul_of_nonneg_left b1 hepos.le
      have d2 := mul_le_mul_of_nonneg_left b2 hepos.le
      rw [abs_le]
      constructor
      · linarith only [rq.1, c2, d2]
      · linarith only [rq.2, c1, d1]
    · have hPn : P ≤ 2 ^ 53 := by
        rw [hP]
        exact (Nat.sub_le _ _).trans (Nat.pow_le_pow_right (by norm_num) h53)
      have e1 : W = w := hr.small w (hwP.trans hPn)
      have e2 : R = P := hr.small P hPn
      rw [abs_le]
      rw [e1, e2, ← he] at rq
      rw [← hu]
      exact ⟨by linarith only [rq.1], by linarith only [rq.2]⟩
    · exact absurd (hzero.mpr h) (by omega)
    · have hwP' : (w : ℚ) = P := by rw [← hePw, h, one_mul]
      have : W / R = 1 := by
        show rnd (w : ℚ) / rnd (P : ℚ) = 1
        rw [hwP']
        exact div_self hrP0.ne'
      show rnd (W / R) = 1
      rw [this]
      exact hr.exact d1 (by rw [abs_one]; exact one_le_pow₀ (by norm_num))

theorem C110_metric_percent (hr : Nearest rnd) (N : Nat) (f g : List (BDD m)) (hl : f.length = g.length)
    (hrange : MetricRange m N f.length .worstCasePercent) :
    ∃ q e, metricFunctionF rnd dec cv .worstCasePercent f g = .ok q ∧ IsMetric N f g .worstCasePercent e ∧
      0 ≤ q ∧ q ≤ 1 ∧ |q - e| ≤ 2 / 2 ^ 52 * e := by
  obtain ⟨q, e, h1, h2, h3, h4, h5, -⟩ := C110_percent hr f g hl (by
    rintro rfl
    have : 1 ≤ ([] : List (BDD m)).length := hrange.1
    simp at this) hrange.2
  exact ⟨q, e, h1, h2, h3, h4, h5⟩

theorem DecToDouble.near (hr : Nearest rnd) (hc : DecToDouble rnd cv) {v : ℚ} (h0 : v = 0 ∨ 1 / 2 ^ 600 ≤ v)
    (hb : v ≤ 2 ^ 600) : 0 ≤ cv v ∧ |cv v - v| ≤ 1 / 2 ^ 52 * v := by
  have hv0 : 0 ≤ v := by
    rcases h0 with rfl | h0
    · exact le_refl _
    · exact (one_div_nonneg.mpr (pow_nonneg (by norm_num) _)).trans h0
  obtain ⟨q', c1, c2⟩ := hc.conv v (by rw [abs_of_nonneg hv0]; exact hb.trans (pow_le_big (by norm_num)))
  rw [abs_of_nonneg hv0] at c1
  rw [c2]
  rcases h0 with rfl | h0
  · rw [zero_div, sub_zero] at c1
    rw [abs_eq_zero.mp (le_antisymm c1 (abs_nonneg _)),
      hr.exact isDouble_zero (by rw [abs_zero]; exact pow_nonneg (by norm_num) _)]
    simp
  have c1' := abs_le.mp c1
  have hq5 : 1 / 2 ^ 1022 ≤ q' := by
    have h8 : (1 : ℚ) / 2 ^ 600 * (1 / 2) ≤ q' := by
      have := mul_le_mul_of_nonneg_right h0 (show (0 : ℚ) ≤ 1 / 2 by norm_num)
      linarith only [this, c1'.1, hv0]
    refine le_trans ?_ h8
    rw [one_div_mul_one_div, ← pow_succ]
    exact one_div_le_one_div_of_le (pow_pos (by norm_num) _) (pow_le_big (by norm_num))
  have hq6 : q' ≤ 2 ^ 1022 := by
    calc q' ≤ v * 2 := by linarith only [c1'.2, hv0]
      _ ≤ 2 ^ 600 * 2 := mul_le_mul_of_nonneg_right hb (by norm_num)
      _ = 2 ^ 601 := (pow_succ _ _).symm
      _ ≤ 2 ^ 1022 := pow_le_big (by norm_num)
  have hrel := abs_le.mp (hr.rel hq5 hq6)
  have hq' : 0 ≤ q' := by linarith only [c1'.1, hv0]
  refine ⟨by linarith only [hrel.1, hq'], abs_le.mpr ⟨?_, ?_⟩⟩
  · linarith only [hrel.1, c1'.1, c1'.2, hv0, hq']
  · linarith only [hrel.2, c1'.1, c1'.2, hv0, hq']

theorem meanSquaredError_frac (f g : List (BDD m)) (N : Nat) (hf : Fits N f) (hg : Fits N g)
    (hlen : 2 * (max f.length g.length + 1) + N ≤ 256) (t : ℚ) (ht : meanSquaredError .baseTwo f g = .ok t) :
    ∃ k n : Nat, n ≤ N ∧ t = (k : ℚ) / 2 ^ n := by
  obtain ⟨d, hd, hl, hv⟩ := C03_absolute_difference_unsigned f g
  have hfit : Fits N d := fits_derived hf hg (fun a b => |(uval a : Int) - uval b|) hv
  have hsz : maxSupportSize d ≤ N := maxSupportSize_le (fun b hb => supportSize_le_of_fits (hfit b hb))
  have h1 := meanSquaredValue_exact d (by omega) (by omega)
  rw [show meanSquaredError .baseTwo f g = meanSquaredValue d by
    simp only [meanSquaredError, hd, bind, Except.bind], h1] at ht
  exact ⟨_, _, hsz, (Except.ok.inj ht).symm⟩

/-- The mean squared error handed to the search is at least a third of the true one and not above it, up to rounding
(missing for the full claim: it is cut off already in the exact computation, C33_mean_squared_error_false). For small
functions nothing is lost with respect to that computation. -/
theorem C110_metric_mean_squared_partial (hr : Nearest rnd) (hd : Dec100 dec) (hc : DecToDouble rnd cv) (N : Nat)
    (f g : List (BDD m)) (hl : f.length = g.length) (hf : Fits N f) (hg : Fits N g)
    (hrange : MetricRange m N f.length .meanSquared) :
    ∃ q e, metricFunctionF rnd dec cv .meanSquared f g = .ok q ∧ IsMetric N f g .meanSquared e ∧ 0 ≤ q ∧
      q ≤ (1 + (N + 2) / 2 ^ 52) * e ∧ (1 - (N + 2) / 2 ^ 52) * e ≤ 3 * q ∧ (q = 0 ↔ ∀ x, uAt f x = uAt g x) ∧
      (N + 2 * f.length ≤ 53 → metricFunction .meanSquared f g = .ok q) := by
  have hrange' : 2 * (f.length + 1) + N ≤ 256 := hrange
  have hsq : ∀ x, absErrAt f g x ^ 2 = (((uAt f x : Int) - uAt g x : Int) : ℚ) ^ 2 := fun x => by
    rw [absErrAt, Int.cast_abs, sq_abs]
  obtain ⟨e, he⟩ : ∃ e, e = mean N (fun x => absErrAt f g x ^ 2) := ⟨_, rfl⟩
  have he' : e = mean N (fun x => (((uAt f x : Int) - uAt g x : Int) : ℚ) ^ 2) := by
    rw [he]
    exact mean_congr N hsq
  obtain ⟨v, h1, h2, h3, h4, h5, h6⟩ := C98_mean_squared_error_partial hr hd f g N hf hg
    (by rw [← hl, max_self]; exact hrange') e he'
  have he0 : 0 ≤ e := he ▸ mean_nonneg N (fun x => sq_nonneg _)
  have hcap : e ≤ 2 ^ (2 * f.length) := by
    have := mean_mono N (g := fun x => absErrAt f g x ^ 2) (h := fun _ => 2 ^ (2 * f.length)) (fun x => by
      obtain ⟨a1, a2⟩ := absErrAt_range hl x
      have a3 : absErrAt f g x ≤ 2 ^ f.length := le_trans a2 (by linarith)
      rw [mul_comm, pow_mul]
      exact pow_le_pow_left₀ a1 a3 2)
    rwa [mean_const, ← he] at this
  have hNq : (N : ℚ) ≤ 256 := by exact_mod_cast (show N ≤ 256 by omega)
  have hN0 : (0 : ℚ) ≤ N := Nat.cast_nonneg N
  obtain ⟨ε, hε⟩ : ∃ ε : ℚ, ε = N / 2 ^ 52 := ⟨_, rfl⟩
  have hε0 : 0 ≤ ε := by rw [hε]; exact div_nonneg hN0 (by norm_num)
  have hε1 : ε ≤ 1 / 2 ^ 44 := by
    rw [hε]
    have : (N : ℚ) / 2 ^ 52 ≤ 256 / 2 ^ 52 := div_le_div_of_nonneg_right hNq (by norm_num)
    exact this.trans (by norm_num)
  have e2 : ((N : ℚ) + 2) / 2 ^ 52 = ε + 2 / 2 ^ 52 := by rw [hε]; ring
  rw [← hε] at h3 h4
  rw [e2]
  have hεe : ε * e ≤ 1 / 2 ^ 44 * e := mul_le_mul_of_nonneg_right hε1 he0
  have hεe0 : 0 ≤ ε * e := mul_nonneg hε0 he0
  obtain ⟨j, hj⟩ : ∃ j : Nat, e = j / 2 ^ N := by
    obtain ⟨j, hj⟩ := mean_nat N (fun x => ((uAt f x : Int) - uAt g x).natAbs ^ 2)
    refine ⟨j, ?_⟩
    rw [he, ← hj]
    refine mean_congr N fun x => ?_
    rw [absErrAt, Int.abs_eq_natAbs, Int.cast_natCast, Nat.cast_pow]
  have hvr : v = 0 ∨ 1 / 2 ^ 600 ≤ v := by
    rcases Nat.eq_zero_or_pos j with hj0 | hj0
    · left
      have e0 : e = 0 := by rw [hj, hj0]; simp
      rw [e0] at h3
      exact le_antisymm (by linarith only [h3]) h2
    · right
      have hel : (1 : ℚ) / 2 ^ 256 ≤ e := by
        rw [hj]
        have h6 : (1 : ℚ) / 2 ^ 256 ≤ 1 / 2 ^ N :=
          one_div_le_one_div_of_le (pow_pos (by norm_num) _) (pow_le_big (by omega))
        refine h6.trans (div_le_div_of_nonneg_right ?_ (pow_nonneg (by norm_num) _))
        exact_mod_cast hj0
      have h8 : (1 : ℚ) / 2 ^ 256 * (1 / 2 ^ 3) ≤ v := by
        have h9 : e * (1 / 2 ^ 3) ≤ v := by
          norm_num at h4 hεe ⊢
          linarith only [h4, hεe, he0, hεe0]
        exact (mul_le_mul_of_nonneg_right hel (by norm_num)).trans h9
      refine le_trans ?_ h8
      rw [one_div_mul_one_div, ← pow_add]
      exact one_div_le_one_div_of_le (pow_pos (by norm_num) _) (pow_le_big (by norm_num))
  have hvb : v ≤ 2 ^ 600 := by
    calc v ≤ e * 2 := by
          norm_num at h3 hεe
          linarith only [h3, hεe, he0]
      _ ≤ 2 ^ (2 * f.length) * 2 := mul_le_mul_of_nonneg_right hcap (by norm_num)
      _ = 2 ^ (2 * f.length + 1) := (pow_succ _ _).symm
      _ ≤ 2 ^ 600 := pow_le_big (by omega)
  obtain ⟨n1, n2⟩ := hc.near hr hvr hvb
  have n2' := abs_le.mp n2
  refine ⟨cv v, e, ?_, he, n1, ?_, ?_, ?_, fun h53 => ?_⟩
  · simp only [metricFunctionF, h1, bind, Except.bind]
  · norm_num at h3 hεe n2' ⊢
    linarith only [h3, n2'.2, hεe, he0, hεe0]
  · norm_num at h3 h4 hεe n2' ⊢
    linarith only [h4, h3, n2'.1, hεe, he0, hεe0]
  · rw [← h5]
    constructor
    · intro h
      rw [h] at n2'
      have : v * (1 - 1 / 2 ^ 52) ≤ 0 := by linarith only [n2'.1]
      norm_num at this
      linarith only [this, h2]
    · intro h
      rw [h] at n2' ⊢
      linarith only [n2'.1, n2'.2]
  · obtain ⟨t, t1, t2⟩ := h6 (by omega)
    obtain ⟨t', t1', t3, -, -⟩ := C33_mean_squared_error_partial f g N hf hg (by rw [← hl, max_self]; exact hrange')
    rw [t1] at t1'
    obtain rfl := Except.ok.inj t1'
    rw [← he'] at t3
    obtain ⟨k, n, hn, hk⟩ := meanSquaredError_frac f g N hf hg (by rw [← hl, max_self]; exact hrange') t t1
    have ht0 : 0 ≤ t := by rw [hk]; exact div_nonneg (Nat.cast_nonneg _) (pow_nonneg (by norm_num) _)
    have hdt : IsDouble t := by
      rw [hk]
      refine isDouble_nat_div k n ?_ (by omega)
      have h8 : t * 2 ^ n ≤ 2 ^ (2 * f.length) * 2 ^ n := mul_le_mul_of_nonneg_right (t3.trans hcap)
        (pow_nonneg (by norm_num) _)
      rw [hk, div_mul_cancel₀ _ (pow_ne_zero n (by norm_num) : (2 : ℚ) ^ n ≠ 0), ← pow_add] at h8
      have h9 : k ≤ 2 ^ (2 * f.length + n) := by exact_mod_cast h8
      exact h9.trans (Nat.pow_le_pow_right (by norm_num) (by omega))
    have hb : cv v = t := hc.back hr hdt ht0 ((t3.trans hcap).trans (pow_le_big (by omega))) (by
      refine t2.trans ?_
      norm_num
      linarith only [ht0])
    simp only [metricFunction, t1, hb]

/-! ## The experiments with small inputs -/

/-- The adder experiment on `double`s is the exact one. -/
theorem C110_minimize_adders_same (hr : Nearest rnd) (hd : Dec100 dec) (hc : DecToDouble rnd cv) (asserts : Bool)
    (fuel : Nat) (files : String → List AigEvent × Bool) (rs : Nat → Nat) :
    minimizeAddersMainF rnd dec cv asserts fuel files rs m = minimizeAddersMain asserts fuel files rs m := by
  obtain ⟨f, h1, h2, h3, -⟩ := C76_load_adder (m := m) asserts files "adder8" 8 (by simp)
  have hne : f ≠ [] := by rintro rfl; simp at h2
  unfold minimizeAddersMainF minimizeAddersMain
  rw [bucketMinimizeHelperF_same hr (info := adderMinimizationInfo) h1 (fun b hb v hv => (h3 b hb v hv).trans_le (by norm_num))]
  intro d hd' g g1 g2
  simp only [adderMinimizationInfo, List.mem_cons, List.not_mem_nil, or_false] at hd'
  have key : ∀ met : ErrorMetric, met = .errorRate ∨ met = .averageCase → ∃ v,
      metricFunctionF rnd dec cv met f g = .ok v ∧ metricFunction met f g = .ok v ∧ IsMetric 16 f g met v := by
    intro met hmet
    obtain ⟨v, hv, hm⟩ := C75_metric_function_partial 16 f g met g1.symm h3 (g2 16 h3)
      (by rcases hmet with rfl | rfl <;> simp [MetricRange, h2]) (by rcases hmet with rfl | rfl <;> decide)
    refine ⟨v, ?_, hv, hm⟩
    rw [C110_metric_exact hr hd hc 16 f g g1.symm h3 (g2 16 h3) hne (by omega) met
      (by rcases hmet with rfl | rfl <;> simp), hv]
  rcases hd' with rfl | rfl
  · obtain ⟨v, v1, v2, v3⟩ := key .errorRate (.inl rfl)
    refine ⟨v, v1, v2, ?_⟩
    obtain ⟨j, j1, j2⟩ := mean_errorRate 16 f g
    have e : v = j / 2 ^ 16 := Eq.trans v3 j2
    rw [e]
    exact sameCell_005 hr (.inr rfl) (by norm_num) j1
  · obtain ⟨v, v1, v2, v3⟩ := key .averageCase (.inr rfl)
    refine ⟨v, v1, v2, ?_⟩
    obtain ⟨j, j2⟩ := mean_absErrAt 16 f g
    have e : v = j / 2 ^ 16 := Eq.trans v3 j2
    have hv : v ≤ metricCap f.length .averageCase := (isMetric_range g1.symm (by decide) v3).2
    have hj : j < 2 ^ 26 := by
      have h4 : v ≤ 2 ^ 9 := by simpa [metricCap, h2] using hv
      rw [e, div_le_iff₀ (by norm_num)] at h4
      have : j ≤ 2 ^ 9 * 2 ^ 16 := by exact_mod_cast h4
      omega
    rw [e]
    exact sameCell_7 hr hj

/-- So the figures printed are the true ones, within the limits, also as the code runs. -/
theorem C110_minimize_adders (hr : Nearest rnd) (hd : Dec100 dec) (hc : DecToDouble rnd cv) (asserts : Bool)
    (files : String → List AigEvent × Bool) (rs : Nat → Nat) :
    ∃ f : List (BDD m), ∃ bound, (∀ x, uAt f x = opA 8 x + opB 8 x) ∧ f.length = 9 ∧ ∀ fuel, bound ≤ fuel →
      ∃ g : List (BDD m), ∃ er ace rows,
        minimizeAddersMainF rnd dec cv asserts fuel files rs m = .ok ((nodeCount f, nodeCount g, er, ace), rows) ∧
        g.length = 9 ∧ Fits 16 g ∧ nodeCount g ≤ nodeCount f ∧
        er = mean 16 (fun x => if bitsAt f x = bitsAt g x then 0 else 1) ∧ ace = mean 16 (absErrAt f g) ∧
        er < double005 ∧ ace < 7 ∧ rows.length = 400 ∧
        ∀ (i : Nat) (row : List Nat × Option (Nat × ℚ × ℚ)), rows[i]? = some row → IsBucketRow f i row ∧
          ∀ p, row.2 = some p → nodeCount g ≤ p.1 := by
  obtain ⟨f, bound, h1, h2, h3⟩ := C107_minimize_adders (m := m) asserts files rs
  refine ⟨f, bound, h1, h2, fun fuel hfuel => ?_⟩
  rw [C110_minimize_adders_same hr hd hc]
  exact h3 fuel hfuel

theorem load_circuit {asserts : Bool} {files : String → List AigEvent × Bool} {path : String} {file : Nat}
    {ni no : Nat} {es : List AigEvent} (hp : iscasFilepath file = .ok path ∨ epflFilepath file = .ok path)
    (hc : CircuitFile files path ni no es) :
    ∃ f : List (BDD m), loadInput asserts files path = .ok f ∧ IsCircuit es no f ∧ Fits ni f := by
  have hnot := filepath_not_adder hp
  obtain ⟨vs, l, a, c1, c2, c3, c4⟩ := hc
  obtain ⟨f, h1, h2, h3⟩ := C76_load_circuit (m := m) asserts files path hnot vs ni l no a es c4 c1 c2 c3
  exact ⟨f, h1, ⟨h2, h3⟩, circuit_fits c2 h3⟩

theorem filepath_cases {filepath filename : Nat → Except Fault String} {file : Nat} {path : String}
    (hp : (filepath, filename) = (iscasFilepath, iscasFilename) ∨ (filepath, filename) = (epflFilepath, epflFilename))
    (hpath : filepath file = .ok path) : iscasFilepath file = .ok path ∨ epflFilepath file = .ok path := by
  rcases hp with hp | hp
  · exact Or.inl (by rw [← (Prod.mk.inj hp).1]; exact hpath)
  · exact Or.inr (by rw [← (Prod.mk.inj hp).1]; exact hpath)

/-- A row of the circuit experiments on `double`s is the exact one, for circuits with at most 45 inputs. -/
theorem C110_minimize_circuit_same (hr : Nearest rnd) (asserts : Bool) (fuel : Nat)
    (files : String → List AigEvent × Bool) (rs : Nat → Nat) (filepath filename : Nat → Except Fault String)
    (hp : (filepath, filename) = (iscasFilepath, iscasFilename) ∨ (filepath, filename) = (epflFilepath, epflFilename))
    (file : Nat) (path : String) (hpath : filepath file = .ok path)
    (ni no : Nat) (es : List AigEvent) (hc : CircuitFile files path ni no es) (hno : 1 ≤ no) (hni : ni ≤ 45) :
    minimizeCircuitRowF rnd dec cv asserts fuel files rs filepath filename file m =
      minimizeCircuitRow asserts fuel files rs filepath filename file m := by
  obtain ⟨f, h1, ⟨h2, -⟩, h3⟩ := load_circuit (m := m) (asserts := asserts) (filepath_cases hp hpath) hc
  have hne : f ≠ [] := by rintro rfl; simp at h2; omega
  unfold minimizeCircuitRowF minimizeCircuitRow
  simp only [hpath, bind, Except.bind]
  rw [bucketMinimizeHelperF_same hr (info := circuitMinimizationInfo path) h1 (fun b hb v hv => (h3 b hb v hv).trans_le (by omega))]
  intro d hd' g g1 g2
  simp only [circuitMinimizationInfo, List.mem_cons, List.not_mem_nil, or_false] at hd'
  subst hd'
  obtain ⟨v, hv, hm⟩ := C75_metric_function_partial ni f g .errorRate g1.symm h3 (g2 ni h3) ⟨by omega, by omega⟩ (by decide)
  have hm' : v = mean ni _ := hm
  obtain ⟨q, q1, -, -, -, -, q2, -⟩ := C98_error_rate hr f g ni g1.symm h3 (g2 ni h3) (by omega) v hm'
  refine ⟨v, by rw [← q2 (by omega)]; exact q1, hv, ?_⟩
  obtain ⟨j, j1, j2⟩ := mean_errorRate ni f g
  have e : v = j / 2 ^ ni := hm'.trans j2
  rw [e]
  exact sameCell_005 hr (.inl rfl) hni j1

/-! ## The experiments with large circuits -/

theorem coordinateF_range (hr : Nearest rnd) {g : Nat} {e b : ℚ} {a c : Nat} (hg : g ≤ 2 ^ 53) (he : 0 ≤ e)
    (hge : g * e ≤ 2 ^ a) (hb : 1 / 2 ^ c ≤ b) (ha : a + c ≤ 900) :
    0 ≤ coordinateF rnd g e b ∧ coordinateF rnd g e b ≤ 2 ^ (a + c) := by
  have hb0 : (0 : ℚ) < b := lt_of_lt_of_le (by positivity) hb
  have h0 : (0 : ℚ) ≤ g * e := mul_nonneg (Nat.cast_nonneg g) he
  have big : ∀ k : Nat, k ≤ 900 → (2 : ℚ) ^ k ≤ 2 ^ 1023 := fun k hk => pow_le_big (by omega)
  have h1 : (g : ℚ) * e ≤ 2 ^ 1023 := hge.trans (big a (by omega))
  have dpow : ∀ k : Nat, k ≤ 900 → IsDouble ((2 : ℚ) ^ k) := fun k hk =>
    ⟨1, k, by norm_num, by omega, by omega, by simp⟩
  unfold coordinateF
  rw [hr.small g hg]
  have r0 := hr.nonneg h0 h1
  have r1 := hr.rnd_le ((abs_of_nonneg h0).trans_le h1) (dpow a (by omega)) hge
  have q0 : 0 ≤ rnd (g * e) / b := div_nonneg r0 hb0.le
  have q1 : rnd (g * e) / b ≤ 2 ^ (a + c) := by
    rw [div_le_iff₀ hb0]
    refine r1.trans ?_
    calc (2 : ℚ) ^ a = 2 ^ (a + c) * (1 / 2 ^ c) := by
          rw [pow_add, mul_assoc, mul_one_div_cancel (pow_pos (by norm_num) _).ne', mul_one]
      _ ≤ 2 ^ (a + c) * b := mul_le_mul_of_nonneg_left hb (pow_nonneg (by norm_num) _)
  have q2 := q1.trans (big (a + c) ha)
  exact ⟨hr.nonneg q0 q2, hr.rnd_le ((abs_of_nonneg q0).trans_le q2) (dpow (a + c) ha) q1⟩

/-- A row of the circuit experiments for up to 1000 inputs: the error rate printed is within `ni` units in the last place
of a `double` of the true one, and both are below 0.05 up to such an error. -/
theorem C110_minimize_circuit (hr : Nearest rnd) (asserts : Bool) (files : String → List AigEvent × Bool)
    (rs : Nat → Nat) (filepath filename : Nat → Except Fault String)
    (hp : (filepath, filename) = (iscasFilepath, iscasFilename) ∨ (filepath, filename) = (epflFilepath, epflFilename))
    (file : Nat) (path name : String) (hpath : filepath file = .ok path) (hname : filename file = .ok name)
    (ni no : Nat) (es : List AigEvent) (hc : CircuitFile files path ni no es) (hno : 1 ≤ no) (hni : ni ≤ 1000) :
    ∃ f : List (BDD m), ∃ bound, IsCircuit es no f ∧ ∀ fuel, bound ≤ fuel → ∃ g : List (BDD m), ∃ er e,
      minimizeCircuitRowF rnd dec cv asserts fuel files rs filepath filename file m =
        .ok (name, nodeCount f, nodeCount g, er) ∧
      g.length = no ∧ Fits ni g ∧ nodeCount g ≤ nodeCount f ∧
      e = mean ni (fun x => if bitsAt f x = bitsAt g x then 0 else 1) ∧ 0 ≤ er ∧ |er - e| ≤ ni / 2 ^ 52 * e ∧
      er < double005 * (1 + 1 / 2 ^ 51) ∧ e < double005 * (1 + (ni + 4) / 2 ^ 52) ∧
      (ni ≤ 53 → er = e ∧ er < 1 / 20) := by
  obtain ⟨f, h1, ⟨h2, h2'⟩, h3⟩ := load_circuit (m := m) (asserts := asserts) (filepath_cases hp hpath) hc
  have hne : f ≠ [] := by rintro rfl; simp at h2; omega
  have hd : (0 : ℚ) < double005 := by norm_num [double005]
  set ops := generateSingleBddOperatorsF rnd f [.positiveCofactor, .negativeCofactor] with hopsdef
  have hops : operatorFunctionsF rnd f (circuitMinimizationInfo path) rs = .ok ops := rfl
  have hreach : ∀ g, Reach ops f g → g.length = f.length ∧ Fits ni g := fun g hg =>
    let ⟨a, b⟩ := generatedF hops hg; ⟨a, b ni h3⟩
  set ms : List (MetricDim m) := [⟨10, errorRateF rnd, double005⟩] with hms
  have hmetric : ∀ g, Reach ops f g → ∃ q, errorRateF rnd f g = .ok q ∧ 0 ≤ q ∧ q ≤ 1 ∧
      |q - mean ni (fun x => if bitsAt f x = bitsAt g x then 0 else 1)| ≤
        ni / 2 ^ 52 * mean ni (fun x => if bitsAt f x = bitsAt g x then 0 else 1) ∧
      (ni ≤ 53 → q = mean ni (fun x => if bitsAt f x = bitsAt g x then 0 else 1)) := fun g hg => by
    obtain ⟨q, q1, -, q2, q3, q4, q5, -⟩ := C98_error_rate hr f g ni (hreach g hg).1.symm h3 (hreach g hg).2 hni _ rfl
    exact ⟨q, q1, q2, q3, q4, q5⟩
  refine ⟨f, 10 * nodeCount f + 1, ⟨h2, h2'⟩, fun fuel hfuel => ?_⟩
  have hprod : (ms.map (·.gridSize)).prod = 10 := by simp [hms]
  obtain ⟨bs, hbs⟩ := C109_returns (rnd := rnd) f ms ops false (by simp [hms]) (by simp [hms]) (by rw [hprod]; norm_num)
    (fun g hg op hop => operatorFunctionsF_total hops op hop g (hreach g hg).1)
    (fun g hg d hd' => by
      rw [hms, List.mem_singleton] at hd'
      subst hd'
      obtain ⟨q, q1, q2, q3, -⟩ := hmetric g hg
      refine ⟨hd.ne', q, q1, ?_⟩
      obtain ⟨r1, r2⟩ := coordinateF_range hr (g := 10) (e := q) (b := double005) (a := 4) (c := 5) (by norm_num) q2
        (by push_cast; linarith only [q3]) (by norm_num [double005]) (by norm_num)
      exact ⟨r1, lt_of_le_of_lt r2 (by norm_num)⟩) fuel (by rw [hprod]; exact hfuel)
  have hsizes := C109_sizes fuel f ms ops false bs (by rw [hprod]; norm_num) hbs
  obtain ⟨hlen, hbounds⟩ := C109_error_bounds hr fuel f ms ops false bs (by rw [hprod]; norm_num)
    (by simp [hms]) (by rw [hms]; intro d hd'; rw [List.mem_singleton] at hd'; subst hd'; norm_num [double005])
    (fun d hd' g v hg hv => by
      rw [hms, List.mem_singleton] at hd'
      subst hd'
      obtain ⟨q, q1, q2, q3, -⟩ := hmetric g hg
      dsimp only at hv
      rw [q1] at hv
      cases hv
      rw [abs_of_nonneg q2]
      exact q3.trans (one_le_pow₀ (by norm_num))) hbs
  rw [hprod] at hlen
  obtain ⟨b0, cs, rfl⟩ := List.exists_cons_of_ne_nil (show bs ≠ [] by rintro rfl; simp at hlen)
  have hmin := minBucketLoop_spec b0 cs
  set b := minBucketLoop b0 cs with hbdef
  obtain ⟨s1, s2, s3, s4, s5⟩ := hsizes b hmin.1
  obtain ⟨t1, t2⟩ := hreach b.function s1
  obtain ⟨i, hi⟩ := List.mem_iff_getElem?.mp hmin.1
  -- the value of the bucket
  have hval : ∃ v, b.metricValues = [v] ∧ errorRateF rnd f b.function = .ok v ∧
      v < double005 * (1 + 1 / 2 ^ 51) ∧ (ni ≤ 53 → v < double005) := by
    cases hemp : b.isEmpty with
    | true =>
      obtain ⟨-, bs', -, hrel⟩ := follows hbs
      obtain ⟨b', -, hbb⟩ := getElem?_forall₂ hrel hi
      have hv : b.metricValues = [0] := hbb.zero hemp
      refine ⟨0, hv, ?_, by positivity, fun _ => hd⟩
      rw [s5 hemp]
      obtain ⟨q, q1, q2, q3, q4, -⟩ := hmetric f .refl
      have e0 : mean ni (fun x => if bitsAt f x = bitsAt f x then (0 : ℚ) else 1) = 0 := by
        rw [mean_congr ni (fun x => if_pos rfl), mean_const]
      rw [e0, mul_zero, sub_zero] at q4
      rw [q1, abs_eq_zero.mp (le_antisymm q4 (abs_nonneg _))]
    | false =>
      have hilt := lt_of_getElem? hi
      rw [hlen] at hilt
      obtain ⟨u1, u2⟩ := hbounds [i] b (by simpa [hms, InBox] using hilt) (by simpa [hms, rank] using hi) hemp
      obtain ⟨v, hv⟩ : ∃ v, b.metricValues = [v] := List.length_eq_one_iff.mp (by rw [u1]; simp [hms])
      obtain ⟨w1, -, w2⟩ := u2 0 ⟨10, errorRateF rnd, double005⟩ i v (by simp [hms]) rfl (by rw [hv]; rfl)
      refine ⟨v, hv, w1, w2, fun h53 => ?_⟩
      obtain ⟨-, f2⟩ := follows_values (by rw [hprod]; norm_num) (fun d hd' => by
        rw [hms, List.mem_singleton] at hd'
        subst hd'
        exact hd) hbs
      obtain ⟨-, -, f3⟩ := f2 [i] b (by simpa [hms, InBox] using hilt) (by simpa [hms, rank] using hi) hemp
      obtain ⟨-, -, f4, -, f5⟩ := f3 0 ⟨10, errorRateF rnd, double005⟩ i v (by simp [hms]) rfl (by rw [hv]; rfl)
      dsimp only at f4 f5
      obtain ⟨q, q1, q2, q3, -, q5⟩ := hmetric b.function s1
      obtain rfl : v = q := by
        dsimp only at w1
        rw [w1] at q1
        exact Except.ok.inj q1
      obtain ⟨j, -, j2⟩ := mean_errorRate ni f b.function
      have hj : v = j / 2 ^ ni := (q5 h53).trans j2
      have hdbl : IsDouble (((10 : Nat) : ℚ) * v) := by
        have h10 : 10 * j ≤ 2 ^ 53 := by
          have h6 : v < 1 / 10 := lt_of_lt_of_le w2 (by norm_num [double005])
          rw [hj, div_lt_iff₀ (by positivity)] at h6
          have h7 : (10 : ℚ) * j ≤ 2 ^ ni := by linarith only [h6]
          have h8 : 10 * j ≤ 2 ^ ni := by exact_mod_cast h7
          exact h8.trans (Nat.pow_le_pow_right (by norm_num) h53)
        have := isDouble_nat_div (10 * j) ni h10 (by omega)
        rw [hj]
        push_cast at this ⊢
        rwa [mul_div_assoc] at this
      have hlt := coordinateF_lt_exact hr (g := 10) (by norm_num) (by norm_num) (by norm_num [double005])
        (by rw [abs_of_nonneg q2]; exact q3.trans (one_le_pow₀ (by norm_num))) hdbl
        (show i < 2 ^ 53 by omega) f5
      refine hlt.trans_le ?_
      have hiq : (i : ℚ) + 1 ≤ 10 := by exact_mod_cast f4
      rw [div_le_iff₀ (by norm_num)]
      exact mul_le_mul_of_nonneg_left (by exact_mod_cast hiq) hd.le
  obtain ⟨v, v1, v2, v3, v4⟩ := hval
  obtain ⟨q, q1, q2, q3, q4, q5⟩ := hmetric b.function s1
  obtain rfl : v = q := by rw [v2] at q1; exact Except.ok.inj q1
  have hrun : minimizeCircuitRowF rnd dec cv asserts fuel files rs filepath filename file m =
      .ok (name, nodeCount f, nodeCount b.function, v) := by
    have hin : (circuitMinimizationInfo path).input = path := rfl
    have hm : metricDimsF (m := m) rnd dec cv (circuitMinimizationInfo path).metrics = ms := rfl
    have hpop : (circuitMinimizationInfo path).populateAllBuckets = false := rfl
    have v0 : vget [v] 0 = .ok v := rfl
    simp only [minimizeCircuitRowF, bucketMinimizeHelperF, hpath, hin, h1, hops, hm, hpop, hbs, minBucket, hname, bind,
      Except.bind, ← hbdef, v1, v0, s2]
  set e := mean ni (fun x => if bitsAt f x = bitsAt b.function x then (0 : ℚ) else 1) with he
  have he0 : 0 ≤ e := by
    have := mean_mono ni (g := fun _ => 0) (h := fun x => if bitsAt f x = bitsAt b.function x then (0 : ℚ) else 1)
      (fun x => by split <;> norm_num)
    rwa [mean_const] at this
  refine ⟨b.function, v, e, hrun, by rw [t1, h2], t2, by rw [← s2]; exact s3, rfl, q2, q4, v3, ?_, fun h53 => ⟨q5 h53, ?_⟩⟩
  · have q4' := (abs_le.mp q4).1
    have hnq : (0 : ℚ) ≤ ni := Nat.cast_nonneg _
    have hnq' : (ni : ℚ) ≤ 1000 := by exact_mod_cast hni
    have hw : e * (1 - ni / 2 ^ 52) < double005 * (1 + 1 / 2 ^ 51) := by linarith only [q4', v3]
    have hpos : (0 : ℚ) < 1 - ni / 2 ^ 52 := by linarith only [hnq']
    have hmul : 1 + 1 / 2 ^ 51 ≤ (1 + ((ni : ℚ) + 4) / 2 ^ 52) * (1 - ni / 2 ^ 52) := by
      nlinarith only [mul_nonneg hnq (sub_nonneg.mpr hnq'), hnq', hnq]
    have h9 : double005 * (1 + 1 / 2 ^ 51) ≤ double005 * (1 + ((ni : ℚ) + 4) / 2 ^ 52) * (1 - ni / 2 ^ 52) := by
      rw [mul_assoc]
      exact mul_le_mul_of_nonneg_left hmul hd.le
    exact lt_of_mul_lt_mul_right (hw.trans_le h9) hpos.le
  · have := v4 h53
    rw [q5 h53] at this ⊢
    exact (C107_limit ni (by omega) f b.function).mp this

/-! ### Examples -/

theorem exists_conversion : ∃ rnd cv dec, Nearest rnd ∧ DecToDouble rnd cv ∧ Dec100 dec := by
  obtain ⟨rnd, hr⟩ := exists_nearest
  refine ⟨rnd, rnd, id, hr, ⟨fun q _ => ⟨q, ?_, rfl⟩⟩, ⟨fun q => ?_⟩⟩
  · rw [sub_self, abs_zero]
    positivity
  · rw [id, sub_self, abs_zero]
    positivity

-- the hypotheses on the functions, with an average error of 1
example : Fits 2 [(BDD.var 0 : BDD .id), .var 1] ∧ Fits 2 [(BDD.var 1 : BDD .id), .zero] ∧ 2 + 2 * 2 ≤ 53 ∧
    MetricRange .id 2 2 .worstCasePercent ∧ MetricRange .id 2 2 .meanSquared ∧
    metricFunction .worstCasePercent [(BDD.var 0 : BDD .id), .var 1] [.var 1, .zero] = .ok (2 / 3) ∧
    -- the true mean is 3/2
    metricFunction .meanSquared [(BDD.var 0 : BDD .id), .var 1] [.var 1, .zero] = .ok (3 / 2) :=
  ⟨by decide +kernel, by decide +kernel, by norm_num, by norm_num [MetricRange], by norm_num [MetricRange],
    by decide +kernel, by decide +kernel⟩

example : Fits 2 [(BDD.var 0 : BDD .id), .var 1] ∧ Fits 2 [(BDD.var 1 : BDD .id), .zero] ∧ 2 + 2 ≤ 53 ∧
    MetricRange .id 2 2 .averageCase ∧ MetricRange .id 2 2 .errorRate ∧ MetricRange .id 2 2 .averageBitFlip ∧
    metricFunction .averageCase [(BDD.var 0 : BDD .id), .var 1] [.var 1, .zero] = .ok 1 :=
  ⟨by decide +kernel, by decide +kernel, by norm_num, by norm_num [MetricRange], by norm_num [MetricRange],
    by norm_num [MetricRange], by decide +kernel⟩

-- a row on `double`s for the circuit with one output and six inputs
example : ∃ rnd cv dec, Nearest rnd ∧ DecToDouble rnd cv ∧
    (minimizeCircuitRowF rnd dec cv true 71 sixFile (fun _ => 0) iscasFilepath iscasFilename 1 .id).toOption =
      some ("c432.aig", 7, 1, 1 / 64) := by
  obtain ⟨rnd, cv, dec, h1, h2, -⟩ := exists_conversion
  refine ⟨rnd, cv, dec, h1, h2, ?_⟩
  have hp : iscasFilepath 1 = .ok "./iscas85/c432.aig" := by decide +kernel
  rw [C110_minimize_circuit_same h1 true 71 sixFile (fun _ => 0) iscasFilepath iscasFilename (.inl rfl) 1 _ hp 6 1 _
    (sixFile_circuit _) (by norm_num) (by norm_num)]
  decide +kernel

end Verif

import Verif.Proofs.FloatBenchmark
import Verif.Props.AdderTables

/-!
# What the experiments measure, with `double`s: C118

`compute_error_metric`, `/repo/experiments/util/benchmark_util.cpp:40-84`.
-/

namespace Verif

variable {m : Mgr} {A : AddEnv} {dec cv lg : ℚ → ℚ}

/-- How far the reported `double` may be from a value as in C85, for `n` bits over `N` variables: CUDD merges constants
that differ by less than 1e-12. -/
def benchTol (N n : Nat) : BenchMetric → ℚ → ℚ
  | .worstCaseRelativeApprox, t => 1 / 2 ^ 39 * t
  | .averageRelativeApprox, t => 1 / 2 ^ 39 * t
  | .worstCaseRelativeAdd, t => 1 / 10 ^ 12 + 1 / 2 ^ 53 * t
  | .averageRelativeAdd, t => 3 / 10 ^ 12 + 1 / 2 ^ 50 * t
  | _, t => (N + n + 2) / 2 ^ 52 * t

/-- The sizes for which the numbers fit into `double`s. -/
def BenchRangeF (m : Mgr) (N n : Nat) (met : BenchMetric) : Prop :=
  BenchRange m N n met ∧ N ≤ 1000 ∧ n ≤ 1000 ∧
    (met = .worstCaseRelativeAdd ∨ met = .averageRelativeAdd → n ≤ 53)

theorem nat_rel {rnd : ℚ → ℚ} (hr : Nearest rnd) (k : Nat) (hk : (k : ℚ) ≤ 2 ^ 600) :
    0 ≤ rnd k ∧ |rnd k - k| ≤ 1 / 2 ^ 53 * (k : ℚ) := by
  refine ⟨hr.nonneg (Nat.cast_nonneg k) (hk.trans (pow_le_big (by norm_num))), ?_⟩
  rcases Nat.eq_zero_or_pos k with rfl | h0
  · have := hr.nat53 0 (by norm_num)
    rw [this]
    simp
  · have h1 : (1 : ℚ) ≤ k := by exact_mod_cast h0
    have h2 : (1 : ℚ) / 2 ^ 1022 ≤ 1 := by
      rw [div_le_one (pow_pos (by norm_num) _)]
      exact one_le_pow₀ (by norm_num)
    have := hr.rel (q := k) (h2.trans h1) (hk.trans (pow_le_big (by norm_num)))
    rw [mul_comm]
    exact this

theorem approximateWorstCase5_le {f g : List (BDD m)} (hl : f.length = g.length) (hf : f.length ≤ 255) :
    ∃ r : Nat, approximateWorstCaseError .baseTwo f g 5 = .ok r ∧ (r : ℚ) ≤ 2 ^ 600 ∧
      (f.length ≤ 52 → r ≤ 2 ^ 53) := by
  obtain ⟨w, -, hw⟩ := worstCaseError_baseTwo f g hf (by omega)
  rcases approx_baseTwo f g 5 (by norm_num) hl hf w hw with ⟨-, h⟩ | ⟨k, hk, -, r, h1, -, h2⟩
  · exact ⟨0, h, by simp, fun _ => Nat.zero_le _⟩
  · have hkl : k < f.length := by
      by_contra hc
      exact hk (by rw [List.getElem?_eq_none (by omega), List.getElem?_eq_none (by omega)])
    obtain ⟨⟨x, hx⟩, -⟩ := hw
    have hw' : (w : ℚ) ≤ 2 ^ f.length - 1 := by
      have := (absErrAt_range hl x).2
      unfold absErrAt at this
      dsimp only at hx
      rw [hx] at this
      exact_mod_cast this
    have h3 : (w : Int) < 2 ^ f.length := by
      have : (w : ℚ) < 2 ^ f.length := by linarith
      exact_mod_cast this
    have h4 : (2 : Int) ^ (k + 1 - (5 : Int).toNat + 1) ≤ 2 ^ f.length :=
      pow_le_pow_right₀ (by norm_num) (by have : (5 : Int).toNat = 5 := rfl; omega)
    have h5 : (r : Int) ≤ 2 ^ (f.length + 1) := by
      rw [pow_succ]
      omega
    have h6 : r ≤ 2 ^ (f.length + 1) := by exact_mod_cast h5
    refine ⟨r, h1, ?_, fun h => h6.trans (Nat.pow_le_pow_right (by norm_num) (by omega))⟩
    have h7 : (r : ℚ) ≤ 2 ^ (f.length + 1) := by exact_mod_cast h6
    exact h7.trans (pow_le_big (by omega))

/-- Every metric but those below is as near to the value documented as its arithmetic allows.  The budget is that of the
randomised search.  With at most 39 output bits the constants left in the manager do not disturb later calls. -/
theorem C118_metric_partial (hr : Nearest A.rnd) (he : A.eps = 1 / 10 ^ 12) (hd : Dec100 dec) (hc : DecToDouble A.rnd cv)
    (hlg : Log2 lg) (N : Nat) (f g : List (BDD m)) (met : BenchMetric) (rs : Nat → Nat → Nat → Nat)
    (hrs : ∀ j i k, rs j i k ≠ 0 ∧ rs j i k ≤ randMax) (fuel : Nat) (hfuel : 2 ^ N + 62 ≤ fuel)
    (hl : f.length = g.length) (hf : Fits N f) (hg : Fits N g) (hran : BenchRangeF m N f.length met) (s : CTab)
    (hs : s.Sep A.eps) (hb : met ≠ .worstCaseRelativeBinarySearch) (hms : met ≠ .meanSquared)
    (ha : met ≠ .averageRelativeApprox) (ha' : met ≠ .averageRelativeAdd) :
    ∃ q t s', computeErrorMetricF A dec cv lg N rs fuel f g met s = .ok (q, s') ∧ IsBenchMetric N f g met t ∧ 0 ≤ q ∧
      |q - t| ≤ benchTol N f.length met t ∧ (f.length ≤ 39 → s'.Sep A.eps) := by
  obtain ⟨hran, hN, hn, hadd⟩ := hran
  have h0 : 0 < A.eps := by rw [he]; norm_num
  have h1 : A.eps ≤ 1 := by rw [he]; norm_num
  have h3 : A.eps ≤ 3 / 2 ^ 41 := by rw [he]; norm_num
  have hz : 1 ≤ f.length → f ≠ [] := by
    rintro hn rfl
    simp at hn
  have hNq : (0 : ℚ) ≤ N := Nat.cast_nonneg N
  have hnq : (0 : ℚ) ≤ f.length := Nat.cast_nonneg _
  have tol : ∀ {q t δ : ℚ}, 0 ≤ t → δ ≤ 2 / 2 ^ 52 → |q - t| ≤ δ * t → |q - t| ≤ (N + f.length + 2) / 2 ^ 52 * t :=
    fun ht hδ h => near_mono ht (hδ.trans (div_le_div_of_nonneg_right (by linarith) (by norm_num))) h
  have exact_ := C85_metric_partial N f g met rs hrs fuel hfuel hl hf hg hran hb hms ha ha'
  cases met with
  | worstCase =>
    obtain ⟨t, e1, e2⟩ := exact_
    obtain ⟨w, w1, ⟨x, hx⟩, -⟩ := C25_worst_case_error_unsigned f g hran (hl ▸ hran)
    simp only [computeErrorMetric, w1, bind, Except.bind, Except.ok.injEq] at e1
    subst e1
    have hb' : (w : ℚ) ≤ 2 ^ 600 := by
      have := (absErrAt_range hl x).2
      have e : absErrAt f g x = w := by
        unfold absErrAt
        dsimp only at hx
        rw [hx]
        simp
      rw [e] at this
      have hran' : f.length ≤ 255 := hran
      exact (this.trans (by linarith)).trans (pow_le_big (by omega : f.length ≤ 600))
    obtain ⟨n1, n2⟩ := nat_rel hr w hb'
    exact ⟨A.rnd w, w, s, by simp only [computeErrorMetricF, keepTab, w1, bind, Except.bind], e2, n1,
      tol (Nat.cast_nonneg w) (by norm_num) n2, fun _ => hs⟩
  | worstCaseRelativeApprox =>
    obtain ⟨w, hw⟩ := exists_isMax_relErrAt .baseTwo f g
    obtain ⟨r0, r1, r2⟩ := max_relErr_range hl hw
    obtain ⟨lo, hi, b1, b2, b3, b4, -⟩ := C117_wcre_bounds hr hd .baseTwo f g (hz hran.1) (signOk_baseTwo g)
      (noWrap_baseTwo f g) hran.2 (hl ▸ hran.2) w hw
    have hlen := hran.2
    obtain ⟨t, t1, t2, t3, t4⟩ := middleF_near hr hd hc r0 (r1.imp_right fun h => le_trans
      (one_div_le_one_div_of_le (pow_pos (by norm_num) _) (pow_le_big (by omega))) h) (r2.trans (pow_le_big (by omega)))
      (by norm_num) (by norm_num) b2 b3 b4
    exact ⟨_, t, s, by simp only [computeErrorMetricF, keepTab, b1, bind, Except.bind], ⟨w, hw, t1, t2⟩, t3, t4, fun _ => hs⟩
  | worstCaseRelativeBinarySearch => exact absurd rfl hb
  | worstCaseRelativeRandomized =>
    obtain ⟨c, e, b1⟩ := C117_wcre_randomized_search_terminates hr hlg hran.1 .baseTwo f g (hz hran.2.1) (signOk_baseTwo g)
      (noWrap_baseTwo f g) hran.2.2 (hl ▸ hran.2.2) N 1 (by omega) hf hg le_rfl rs hrs fuel hfuel
    obtain ⟨b2, b3⟩ := C117_wcre_randomized_search hr hlg .baseTwo f g (hz hran.2.1) (signOk_baseTwo g)
      (noWrap_baseTwo f g) hran.2.2 (hl ▸ hran.2.2) N 1 rs fuel c e b1
    obtain ⟨b4, b5⟩ := wcreRandomizedSearchF_lt _ _ _ _ _ _ _ _ _ b1
    obtain ⟨q, q1, q2, q3⟩ := quotient_near hr b2 b4 b5
    exact ⟨_, _, s, by simp only [computeErrorMetricF, keepTab, b1, q1, bind, Except.bind], b3, q2,
      tol (by positivity) (by norm_num) q3, fun _ => hs⟩
  | worstCaseRelativeAdd =>
    have hlen := hadd (.inl rfl)
    obtain ⟨M, -, hM⟩ := C41_wcre_add hran.1 .baseTwo f g (signOk_baseTwo f) (signOk_baseTwo g) N hf hg hran.2
    obtain ⟨v, s', e, hv0, hv, hsep⟩ := wcreAddE_spec hr h0 h1 hran.1 .baseTwo f g (signOk_baseTwo f) (signOk_baseTwo g)
      hlen (hl ▸ hlen) hf hg hran.2 s hs hM
    refine ⟨v, M, s', e, hM, hv0, ?_, fun h => hsep h3 h (hl ▸ h)⟩
    rw [he, mul_comm M] at hv
    exact hv
  | worstCaseRelativeSymbolic =>
    obtain ⟨w, hw⟩ := exists_isMax_relErrAt .baseTwo f g
    obtain ⟨r0, r1, r2⟩ := max_relErr_range hl hw
    have hlen := hran.2
    obtain ⟨v, e1, e2⟩ := C117_wcre_symbolic_division hd .baseTwo f g (hz hran.1) (signOk_baseTwo g) (noWrap_baseTwo f g) 16
      (by rw [← hl, max_self]; omega) w hw
    have f1 := Int.floor_le (w * 2 ^ 16)
    have f2 := Int.lt_floor_add_one (w * 2 ^ 16)
    have f3 : 0 ≤ ⌊w * 2 ^ 16⌋ := Int.floor_nonneg.mpr (by positivity)
    set z := ⌊w * 2 ^ 16⌋ with hzdef
    have t0 : (0 : ℚ) ≤ z / 2 ^ 16 := div_nonneg (by exact_mod_cast f3) (by norm_num)
    have t1 : (z : ℚ) / 2 ^ 16 ≤ w := by
      rw [div_le_iff₀ (by norm_num)]
      exact f1
    have t2 : w < z / 2 ^ 16 + 1 / 2 ^ 16 := by
      rw [← add_div, lt_div_iff₀ (by norm_num)]
      exact f2
    have e2' := abs_le.mp e2
    have v1 : v ≤ 2 * (z / 2 ^ 16) := by linarith only [e2'.2, t0]
    have v2 : 1 / 2 * (z / 2 ^ 16 : ℚ) ≤ v := by linarith only [e2'.1, t0]
    obtain ⟨n1, n2⟩ := hc.near hr (v := v) (by
      rcases f3.eq_or_lt with h | h
      · left
        rw [← h] at v1 v2
        simp at v1 v2
        exact le_antisymm v1 v2
      · right
        have : (1 : ℚ) ≤ z := by exact_mod_cast h
        have h5 : (1 : ℚ) / 2 ^ 17 ≤ v := by
          norm_num at v2 ⊢
          linarith
        exact le_trans (one_div_le_one_div_of_le (pow_pos (by norm_num) _) (pow_le_big (by norm_num))) h5) (by
      calc v ≤ 2 * (z / 2 ^ 16) := v1
        _ ≤ w * 2 := by linarith
        _ ≤ 2 ^ f.length * 2 := mul_le_mul_of_nonneg_right r2 (by norm_num)
        _ = 2 ^ (f.length + 1) := (pow_succ _ _).symm
        _ ≤ 2 ^ 600 := pow_le_big (by omega))
    refine ⟨cv v, z / 2 ^ 16, s, by simp only [computeErrorMetricF, keepTab, e1, bind, Except.bind], ⟨w, hw, t1, t2⟩, n1,
      tol t0 (by norm_num) (near_trans (by norm_num) n2 e2), fun _ => hs⟩
  | approximateWorstCase5 =>
    obtain ⟨t, e1, e2⟩ := exact_
    have hran' : f.length ≤ 255 := hran
    obtain ⟨r, hr1, hr2, -⟩ := approximateWorstCase5_le hl hran'
    simp only [computeErrorMetric, hr1, bind, Except.bind, Except.ok.injEq] at e1
    subst e1
    obtain ⟨n1, n2⟩ := nat_rel hr r hr2
    exact ⟨A.rnd r, r, s, by simp only [computeErrorMetricF, keepTab, hr1, bind, Except.bind], e2, n1,
      tol (Nat.cast_nonneg r) (by norm_num) n2, fun _ => hs⟩
  | averageCase =>
    obtain ⟨q, e, q1, q2, q3, q4⟩ := C110_metric_near hr hd hc N f g hl hf hg .averageCase (by simp) hN hn hran
    refine ⟨q, e, s, ?_, q2, q3, q4, fun _ => hs⟩
    have q1' : (do let v ← averageCaseErrorF A.rnd dec .baseTwo f g; .ok (cv v)) = (.ok q : Except Fault ℚ) := q1
    simp only [computeErrorMetricF, q1']
    rfl
  | averageRelativeApprox => exact absurd rfl ha
  | averageRelativeAdd => exact absurd rfl ha'
  | meanSquared => exact absurd rfl hms
  | errorRate =>
    obtain ⟨q, e, q1, q2, q3, q4⟩ := C110_metric_near hr hd hc N f g hl hf hg .errorRate (by simp) hN hn hran
    refine ⟨q, e, s, ?_, q2, q3, q4, fun _ => hs⟩
    simp only [metricFunctionF] at q1
    simp only [computeErrorMetricF, keepTab, q1, bind, Except.bind]
  | averageBitFlip =>
    obtain ⟨q, e, q1, q2, q3, q4⟩ := C110_metric_near hr hd hc N f g hl hf hg .averageBitFlip (by simp) hN hn hran
    refine ⟨q, e, s, ?_, q2, q3, q4, fun _ => hs⟩
    simp only [metricFunctionF] at q1
    simp only [computeErrorMetricF, keepTab, q1, bind, Except.bind]
  | worstCaseBitFlip =>
    obtain ⟨v, s', e1, e2, ⟨x, hx⟩, e3⟩ := C116_worst_case_bit_flip_error hr h0 h1 f g hl hran s hs
    have hv : v ≤ f.length := by
      have := hamming_le_length (bitsAt f x) (bitsAt g x)
      dsimp only at hx
      rw [hx] at this
      simpa [bitsAt] using this
    have hv' : A.rnd (v : ℚ) = v := hr.nat53 v (by omega)
    refine ⟨v, v, s', by simp only [computeErrorMetricF, e1, hv', bind, Except.bind], ⟨⟨x, ?_⟩, fun y => ?_⟩,
      Nat.cast_nonneg v, ?_, fun _ => e2⟩
    · dsimp only at hx ⊢
      rw [hx]
    · exact Nat.cast_le.mpr (e3 y)
    · rw [sub_self, abs_zero]
      exact mul_nonneg (div_nonneg (by linarith) (by norm_num)) (Nat.cast_nonneg v)

/-- For small functions nothing is lost with respect to the exact computation. -/
theorem C118_metric_exact (hr : Nearest A.rnd) (he : A.eps = 1 / 10 ^ 12) (hd : Dec100 dec) (hc : DecToDouble A.rnd cv)
    (N : Nat) (f g : List (BDD m)) (met : BenchMetric) (rs : Nat → Nat → Nat → Nat) (fuel : Nat)
    (hl : f.length = g.length) (hf : Fits N f) (hg : Fits N g) (hne : f ≠ []) (s : CTab) (hs : s.Sep A.eps)
    (hmet : met ∈ [BenchMetric.worstCase, .averageCase, .errorRate, .averageBitFlip, .worstCaseBitFlip] ∧
      N + f.length ≤ 53 ∨ met = .approximateWorstCase5 ∧ f.length ≤ 52 ∨ met = .meanSquared ∧ N + 2 * f.length ≤ 53) :
    ∃ q s', computeErrorMetric N rs fuel f g met = .ok q ∧ computeErrorMetricF A dec cv lg N rs fuel f g met s = .ok (q, s') ∧
      s'.Sep A.eps := by
  have h0 : 0 < A.eps := by rw [he]; norm_num
  have h1 : A.eps ≤ 1 := by rw [he]; norm_num
  have hlen1 : 1 ≤ f.length := List.length_pos_iff.mpr hne
  rcases hmet with ⟨hmet, hsz⟩ | ⟨rfl, hsz⟩ | ⟨rfl, hsz⟩
  · have key : ∀ em : ErrorMetric, em ∈ [ErrorMetric.worstCase, .averageCase, .errorRate, .averageBitFlip] →
        MetricRange m N f.length em → ∃ q, metricFunction em f g = .ok q ∧ metricFunctionF A.rnd dec cv em f g = .ok q := by
      intro em hem hran
      have hms : em ≠ .meanSquared := by
        rintro rfl
        simp at hem
      obtain ⟨e, e1, -⟩ := C75_metric_function_partial N f g em hl hf hg hran hms
      exact ⟨e, e1, by
        rw [C110_metric_exact hr hd hc N f g hl hf hg hne hsz em (by
          simp only [List.mem_cons, List.not_mem_nil, or_false] at hem ⊢
          tauto), e1]⟩
    simp only [List.mem_cons, List.not_mem_nil, or_false] at hmet
    rcases hmet with rfl | rfl | rfl | rfl | rfl
    · obtain ⟨q, q1, q2⟩ := key .worstCase (by simp) (by simp only [MetricRange]; omega)
      refine ⟨q, s, q1, ?_, hs⟩
      have q2' : (do let v ← worstCaseError .baseTwo f g; .ok (A.rnd v)) = (.ok q : Except Fault ℚ) := q2
      simp only [computeErrorMetricF, q2']
      rfl
    · obtain ⟨q, q1, q2⟩ := key .averageCase (by simp) (by simp only [MetricRange]; omega)
      refine ⟨q, s, q1, ?_, hs⟩
      have q2' : (do let v ← averageCaseErrorF A.rnd dec .baseTwo f g; .ok (cv v)) = (.ok q : Except Fault ℚ) := q2
      simp only [computeErrorMetricF, q2']
      rfl
    · obtain ⟨q, q1, q2⟩ := key .errorRate (by simp) (by simp only [MetricRange]; omega)
      refine ⟨q, s, q1, ?_, hs⟩
      have q2' : errorRateF A.rnd f g = .ok q := q2
      simp only [computeErrorMetricF, q2']
      rfl
    · obtain ⟨q, q1, q2⟩ := key .averageBitFlip (by simp) (by simp only [MetricRange]; omega)
      refine ⟨q, s, q1, ?_, hs⟩
      have q2' : averageBitFlipErrorF A.rnd f g = .ok q := q2
      simp only [computeErrorMetricF, q2']
      rfl
    · obtain ⟨v, s', e1, e2, e3⟩ := C116_worst_case_bit_flip_error hr h0 h1 f g hl (by omega) s hs
      obtain ⟨v', e4, e5⟩ := C39_worst_case_bit_flip_error f g hl (by omega)
      obtain rfl := e3.unique e5
      have hv : v ≤ f.length := by
        obtain ⟨⟨x, hx⟩, -⟩ := e3
        have := hamming_le_length (bitsAt f x) (bitsAt g x)
        dsimp only at hx
        rw [hx] at this
        simpa [bitsAt] using this
      have hv' : A.rnd (v : ℚ) = v := hr.nat53 v (by omega)
      exact ⟨v, s', by simp only [computeErrorMetric, e4, bind, Except.bind],
        by simp only [computeErrorMetricF, e1, hv', bind, Except.bind], e2⟩
  · obtain ⟨r, r1, -, r2⟩ := approximateWorstCase5_le hl (by omega)
    have := hr.nat53 r (r2 hsz)
    exact ⟨r, s, by simp only [computeErrorMetric, r1, bind, Except.bind],
      by simp only [computeErrorMetricF, keepTab, r1, this, bind, Except.bind], hs⟩
  · obtain ⟨q, e, q1, -, -, -, -, -, q2⟩ := C110_metric_mean_squared_partial hr hd hc N f g hl hf hg (by
      simp only [MetricRange]; omega)
    refine ⟨q, s, q2 hsz, ?_, hs⟩
    have q1' : (do let v ← meanSquaredErrorF A.rnd dec .baseTwo f g; .ok (cv v)) = (.ok q : Except Fault ℚ) := q1
    simp only [computeErrorMetricF, q1']
    rfl

/-- The manager, the arithmetic and functions of two bits. -/
example : ∃ (A : AddEnv) (dec cv lg : ℚ → ℚ) (s : CTab), Nearest A.rnd ∧ A.eps = 1 / 10 ^ 12 ∧ Dec100 dec ∧
    DecToDouble A.rnd cv ∧ Log2 lg ∧ s.Sep A.eps ∧ Fits 2 [BDD.var (m := .id) 0, (BDD.var 0).xor (.var 1)] ∧
    ∀ met, BenchRangeF .id 2 2 met := by
  obtain ⟨rnd, cv, dec, h1, h2, h3⟩ := exists_conversion
  obtain ⟨lg, h4⟩ := exists_log2
  refine ⟨⟨rnd, 1 / 10 ^ 12, fun n => n⟩, dec, cv, lg, ⟨[1, 0], 0⟩, h1, rfl, h3, h2, h4, C116_new_manager,
    by decide +kernel, fun met => ?_⟩
  have : Mgr.id.Mono := fun a b h => h
  cases met <;> simp [BenchRangeF, BenchRange, this]

/-- The average relative errors are those of the original relative to the approximation, as in C85: missing is that the
two are passed in the right order. -/
theorem C118_average_relative_partial (hr : Nearest A.rnd) (he : A.eps = 1 / 10 ^ 12) (hd : Dec100 dec)
    (hc : DecToDouble A.rnd cv) (N : Nat) (f g : List (BDD m)) (rs : Nat → Nat → Nat → Nat) (fuel : Nat)
    (hl : f.length = g.length) (hf : Fits N f) (hg : Fits N g) (met : BenchMetric)
    (hm : met = .averageRelativeApprox ∨ met = .averageRelativeAdd) (hran : BenchRangeF m N f.length met) (s : CTab)
    (hs : s.Sep A.eps) :
    ∃ q t s', computeErrorMetricF A dec cv lg N rs fuel f g met s = .ok (q, s') ∧ IsBenchMetric N g f met t ∧ 0 ≤ q ∧
      |q - t| ≤ benchTol N f.length met t ∧ (f.length ≤ 39 → s'.Sep A.eps) := by
  obtain ⟨hran, hN, hn, hadd⟩ := hran
  have h0 : 0 < A.eps := by rw [he]; norm_num
  have h1 : A.eps ≤ 1 := by rw [he]; norm_num
  have h3 : A.eps ≤ 3 / 2 ^ 41 := by rw [he]; norm_num
  obtain ⟨r0, r1, r2⟩ := mean_relErr_range hl.symm N
  rcases hm with rfl | rfl
  · have hlen := hran.2
    obtain ⟨lo, hi, b1, b2, b3, b4, -⟩ := C117_acre_bounds hr hd .baseTwo g f (by
      rintro rfl
      have := hran.1
      simp [hl] at this) (signOk_baseTwo f) (noWrap_baseTwo g f) N hg hf (by rw [← hl, max_self]; exact hlen)
    have hNq : (N : ℚ) ≤ 256 := by exact_mod_cast (show N ≤ 256 by omega)
    have hN0 : (0 : ℚ) ≤ N := Nat.cast_nonneg N
    obtain ⟨t, t1, t2, t3, t4⟩ := middleF_near hr hd hc r0 (r1.imp_right fun h => le_trans
      (one_div_le_one_div_of_le (pow_pos (by norm_num) _) (pow_le_big (by omega))) h) (r2.trans (pow_le_big (by omega)))
      (by norm_num; linarith) (by norm_num; linarith) b2 b3 b4
    exact ⟨_, t, s, by simp only [computeErrorMetricF, keepTab, b1, bind, Except.bind], ⟨t1, t2⟩, t3, t4, fun _ => hs⟩
  · have hlen := hadd (.inr rfl)
    obtain ⟨v, s', e, hv0, hv, hsep⟩ := acreAddE_spec hd hr h0 h1 hran.1 .baseTwo g f (signOk_baseTwo g) (signOk_baseTwo f)
      (hl ▸ hlen) hlen hg hf hran.2 s hs
    rw [he] at hv
    have r2' : mean N (relErrAt .baseTwo g f) ≤ 2 ^ 53 := r2.trans (pow_le_big (by omega))
    set μ := mean N (relErrAt .baseTwo g f) with hμ
    have hv' := abs_le.mp hv
    obtain ⟨n1, n2⟩ := hc.near_abs hr hv0 (show v ≤ 2 ^ 600 from le_trans (b := 2 ^ 54) (by
      norm_num at hv' r2' ⊢
      linarith) (pow_le_big (by norm_num)))
    have n2' := abs_le.mp n2
    refine ⟨cv v, μ, s', by simp only [computeErrorMetricF, e, bind, Except.bind], hμ, n1, ?_, fun h => hsep h3 (hl ▸ h) h⟩
    unfold benchTol
    refine abs_le.mpr ⟨?_, ?_⟩
    · norm_num at hv' n2' ⊢
      linarith only [hv'.1, hv'.2, n2'.1, r0]
    · norm_num at hv' n2' ⊢
      linarith only [hv'.1, hv'.2, n2'.2, r0]

/-- The error this makes has no bound: an average relative error of 1 is reported as about `2^k`. -/
theorem C118_average_relative_false (hr : Nearest A.rnd) (he : A.eps = 1 / 10 ^ 12) (hd : Dec100 dec)
    (hc : DecToDouble A.rnd cv) (k : Nat) (rs : Nat → Nat → Nat → Nat) (fuel : Nat) (s : CTab) (hs : s.Sep A.eps) :
    mean 0 (relErrAt .baseTwo (powerOf k) (zerosOf k)) = 1 ∧
    (k ≤ 52 → ∃ q s', computeErrorMetricF A dec cv lg 0 rs fuel (powerOf k) (zerosOf k) .averageRelativeAdd s = .ok (q, s') ∧
      2 / 3 * 2 ^ k ≤ q) ∧
    (k ≤ 254 → ∃ q s', computeErrorMetricF A dec cv lg 0 rs fuel (powerOf k) (zerosOf k) .averageRelativeApprox s =
      .ok (q, s') ∧ 2 / 3 * 2 ^ k ≤ q) := by
  have hp : ∀ x, uAt (powerOf k) x = 2 ^ k := fun x => by
    rw [powerOf, uAt_zeros_append]
    simp [uAt, bitsAt, uval]
  have hz : ∀ x, uAt (zerosOf k) x = 0 := fun x => by
    have := uAt_zeros_append (k + 1) ([] : List (BDD Mgr.id)) x
    rw [List.append_nil] at this
    rw [zerosOf, this]
    simp [uAt, bitsAt, uval]
  have hl : (powerOf k).length = (zerosOf k).length := by simp [powerOf, zerosOf]
  have hlen : (powerOf k).length = k + 1 := by simp [powerOf]
  have fp : Fits 0 (powerOf k) := by
    intro b hb v hv
    simp only [powerOf, List.mem_append, List.mem_replicate, List.mem_singleton] at hb
    rcases hb with ⟨-, rfl⟩ | rfl <;> simp [BDD.mem_supportIndices] at hv
  have fz : Fits 0 (zerosOf k) := by
    intro b hb v hv
    simp only [zerosOf, List.mem_replicate] at hb
    obtain ⟨-, rfl⟩ := hb
    simp [BDD.mem_supportIndices] at hv
  have h2 : ∀ x, relErrAt .baseTwo (zerosOf k) (powerOf k) x = 2 ^ k := fun x => by
    simp only [relErrAt, valAt, hp, hz]
    push_cast
    rw [zero_sub, abs_neg, abs_of_nonneg (by positivity)]
    simp
  have hm : Mgr.id.Mono := fun _ _ h => h
  refine ⟨(C85_average_relative_false k rs fuel).1, fun hk => ?_, fun hk => ?_⟩
  · obtain ⟨q, t, s', h3, h4, -, h5, -⟩ := C118_average_relative_partial (lg := lg) hr he hd hc 0 (powerOf k) (zerosOf k) rs fuel hl fp fz
      .averageRelativeAdd (.inr rfl) ⟨⟨hm, by norm_num⟩, by norm_num, by omega, fun _ => by omega⟩ s hs
    have h4' : t = mean 0 (relErrAt .baseTwo (zerosOf k) (powerOf k)) := h4
    rw [mean_congr 0 h2, mean_const] at h4'
    refine ⟨q, s', h3, ?_⟩
    rw [h4'] at h5
    have := (abs_le.mp h5).1
    unfold benchTol at this
    have hpos : (1 : ℚ) ≤ 2 ^ k := one_le_pow₀ (by norm_num)
    norm_num at this
    linarith
  · obtain ⟨q, t, s', h3, ⟨h4, -⟩, -, h5, -⟩ := C118_average_relative_partial (lg := lg) hr he hd hc 0 (powerOf k) (zerosOf k) rs fuel
      hl fp fz .averageRelativeApprox (.inl rfl) ⟨⟨by omega, by omega⟩, by norm_num, by omega, by simp⟩ s hs
    rw [mean_congr 0 h2, mean_const] at h4
    refine ⟨q, s', h3, ?_⟩
    have := (abs_le.mp h5).1
    unfold benchTol at this
    have hpos : (0 : ℚ) < 2 ^ k := by positivity
    norm_num at this
    linarith

/-- The binary search: C43 and C117.  Missing: the documented precision, errors between 0 and 1, and errors above
`2^38`. -/
theorem C118_binary_search_partial (hr : Nearest A.rnd) (hlg : Log2 lg) (N : Nat) (f g : List (BDD m))
    (rs : Nat → Nat → Nat → Nat) (fuel : Nat) (hfuel : 143 ≤ fuel) (hl : f.length = g.length)
    (hran : BenchRange m N f.length .worstCaseRelativeBinarySearch) (w : ℚ) (hw : IsMax (relErrAt .baseTwo f g) w)
    (s : CTab) :
    (w = 0 ∨ 1 ≤ w → w ≤ 2 ^ 38 →
      ∃ q, computeErrorMetricF A dec cv lg N rs fuel f g .worstCaseRelativeBinarySearch s = .ok (q, s) ∧
        (|q - w| ≤ 1 / 19998 ∨ (w ≤ q ∧ q < 3 / 2 * w))) ∧
    (0 < w → w < 1 → computeErrorMetricF A dec cv lg N rs fuel f g .worstCaseRelativeBinarySearch s = .error .ub) := by
  have hf0 : f ≠ [] := by
    rintro rfl
    have := hran.1
    simp at this
  have p := hr.rel (q := 1 / 10000) (le_trans (one_div_le_one_div_of_le (pow_pos (by norm_num) _)
    (pow_le_big (show 14 ≤ 1022 by norm_num))) (by norm_num)) (le_trans (by norm_num : (1 / 10000 : ℚ) ≤ 2 ^ 0)
      (pow_le_big (by norm_num)))
  have p' := abs_le.mp p
  obtain ⟨pr, hpr⟩ : ∃ pr, pr = A.rnd (1 / 10000) := ⟨_, rfl⟩
  rw [← hpr] at p'
  have hp1 : 1 / 2 ^ 14 ≤ pr := by
    norm_num at p' ⊢
    linarith
  have hp2 : pr < 1 / 9999 := by
    norm_num at p' ⊢
    linarith
  simp only [computeErrorMetricF, ← hpr]
  refine ⟨fun h h38 => ?_, fun w0 w1 => ?_⟩
  · have e := C117_wcre_search_exact hr hlg .baseTwo f g hf0 (signOk_baseTwo g) (noWrap_baseTwo f g) 16 14 (by norm_num)
      pr hp1 (fun x => (hw.2 x).trans h38) fuel
    obtain ⟨v, h1, h2⟩ := C43_wcre_search_partial .baseTwo f g hf0 (signOk_baseTwo g) (noWrap_baseTwo f g) hran.2
      (hl ▸ hran.2) 16 (le_refl _) pr (le_trans (by norm_num) hp1) w hw h fuel hfuel
    exact ⟨v, by rw [e, h1]; rfl, h2.imp_left fun h => h.trans (by linarith)⟩
  · have := C117_wcre_search_below_one_ub hr hlg .baseTwo f g hf0 (signOk_baseTwo g) (noWrap_baseTwo f g) 16 pr
      (le_trans (by norm_num) hp1) (by linarith) w hw w0 w1 fuel (by omega)
    rw [this]
    rfl

example : BenchRange .id 1 2 .worstCaseRelativeBinarySearch ∧
    IsMax (relErrAt .baseTwo [BDD.zero (m := .id), .var 0] [BDD.one, .zero]) 1 ∧ (1 : ℚ) ≤ 2 ^ 38 := by
  refine ⟨by simp [BenchRange], ⟨⟨fun _ => false, ?_⟩, fun x => ?_⟩, by norm_num⟩
  · norm_num [relErrAt, valAt, uAt, bitsAt, uval]
  · cases h : x 0 <;> norm_num [relErrAt, valAt, uAt, bitsAt, uval, h]

/-- 3 with 41 bits. -/
def threeOf41 : List (BDD Mgr.id) := [.one, .one] ++ List.replicate 39 .zero

/-- The binary search never returns for a constant error of `2^39 + 1/3`. -/
theorem C118_binary_search_false (hr : Nearest A.rnd) (hlg : Log2 lg) : ∃ f g : List (BDD Mgr.id), f.length = g.length ∧
    BenchRangeF .id 0 f.length .worstCaseRelativeBinarySearch ∧ IsMax (relErrAt .baseTwo f g) (2 ^ 39 + 1 / 3) ∧
    ∀ rs fuel s, computeErrorMetricF A dec cv lg 0 rs fuel f g .worstCaseRelativeBinarySearch s = .error .fuel := by
  have hx : ∀ x, relErrAt .baseTwo threeOf41 farConstant x = 2 ^ 39 + 1 / 3 := by
    intro x
    norm_num [relErrAt, valAt, uAt, bitsAt, uval, farConstant, threeOf41, List.replicate]
  have hp : A.rnd (1 / 10000) < 2 ^ 39 / 2 ^ 52 := by
    have p := hr.rel (q := 1 / 10000) (le_trans (one_div_le_one_div_of_le (pow_pos (by norm_num) _)
      (pow_le_big (show 14 ≤ 1022 by norm_num))) (by norm_num)) (le_trans (by norm_num : (1 / 10000 : ℚ) ≤ 2 ^ 0)
        (pow_le_big (by norm_num)))
    have p' := (abs_le.mp p).2
    norm_num at p' ⊢
    linarith
  refine ⟨threeOf41, farConstant, by simp [threeOf41, farConstant], by simp [BenchRangeF, BenchRange, threeOf41],
    ⟨⟨fun _ => false, hx _⟩, fun x => (hx x).le⟩, fun rs fuel s => ?_⟩
  have hnd := not_isDouble_third (2 ^ 39)
  have := C117_wcre_search_runs_forever hr hlg .baseTwo _ _ (by simp [threeOf41]) (signOk_baseTwo _) (noWrap_baseTwo _ _) 16
    le_rfl (2 ^ 39 + 1 / 3) hx (by norm_num at hnd ⊢; exact hnd) 39 (by norm_num) (by norm_num) (by norm_num) _ hp fuel
  simp only [computeErrorMetricF, this]
  rfl

/-- The mean squared error: between a third of the true one and the true one, up to rounding.  Missing: C33. -/
theorem C118_mean_squared_partial (hr : Nearest A.rnd) (hd : Dec100 dec) (hc : DecToDouble A.rnd cv) (N : Nat)
    (f g : List (BDD m)) (rs : Nat → Nat → Nat → Nat) (fuel : Nat) (hl : f.length = g.length) (hf : Fits N f)
    (hg : Fits N g) (hran : BenchRange m N f.length .meanSquared) (s : CTab) :
    ∃ q, computeErrorMetricF A dec cv lg N rs fuel f g .meanSquared s = .ok (q, s) ∧ 0 ≤ q ∧
      q ≤ (1 + (N + 2) / 2 ^ 52) * mean N (fun x => absErrAt f g x ^ 2) ∧
      (1 - (N + 2) / 2 ^ 52) * mean N (fun x => absErrAt f g x ^ 2) ≤ 3 * q ∧ (q = 0 ↔ ∀ x, uAt f x = uAt g x) := by
  obtain ⟨q, e, q1, q2, q3, q4, q5, q6, -⟩ := C110_metric_mean_squared_partial hr hd hc N f g hl hf hg hran
  have q2' : e = mean N (fun x => absErrAt f g x ^ 2) := q2
  subst q2'
  refine ⟨q, ?_, q3, q4, q5, q6⟩
  have q1' : (do let v ← meanSquaredErrorF A.rnd dec .baseTwo f g; .ok (cv v)) = (.ok q : Except Fault ℚ) := q1
  simp only [computeErrorMetricF, q1']
  rfl

/-- `mean_squared_error` truncates the counts: 5/2 instead of 7/2. -/
theorem C118_mean_squared_false (hr : Nearest A.rnd) (he : A.eps = 1 / 10 ^ 12) (hd : Dec100 dec)
    (hc : DecToDouble A.rnd cv) (s : CTab) (hs : s.Sep A.eps) : ∃ f g : List (BDD Mgr.id), f.length = g.length ∧ Fits 2 f ∧
    Fits 2 g ∧ BenchRangeF .id 2 f.length .meanSquared ∧ ∀ rs fuel,
      ∃ s', computeErrorMetricF A dec cv lg 2 rs fuel f g .meanSquared s = .ok (5 / 2, s') ∧
        ¬ IsBenchMetric 2 f g .meanSquared (5 / 2) ∧ mean 2 (fun x => absErrAt f g x ^ 2) = 7 / 2 := by
  have hv : ∀ f g : List (BDD Mgr.id), f = [.var 0, .var 1] → g = [.zero, .zero] →
      mean 2 (fun x => absErrAt f g x ^ 2) = 7 / 2 ∧ ∀ rs fuel, computeErrorMetric 2 rs fuel f g .meanSquared = .ok (5 / 2) := by
    rintro f g hf hg
    refine ⟨?_, fun rs fuel => ?_⟩
    · have h6 : mean 2 (fun x => (((uAt f x : Int) - uAt g x : Int) : ℚ) ^ 2) = 7 / 2 := by
        subst hf hg
        decide +kernel
      rw [← h6]
      refine mean_congr 2 fun x => ?_
      simp only [absErrAt, Int.cast_abs, sq_abs]
    · subst hf hg
      simp only [computeErrorMetric]
      decide +kernel
  refine ⟨[.var 0, .var 1], [.zero, .zero], rfl, by decide +kernel, by decide +kernel,
    by simp [BenchRangeF, BenchRange], fun rs fuel => ?_⟩
  obtain ⟨h1, h2⟩ := hv _ _ rfl rfl
  obtain ⟨q, s', q1, q2, -⟩ := C118_metric_exact (lg := lg) (m := .id) hr he hd hc 2 [.var 0, .var 1] [.zero, .zero] .meanSquared rs fuel rfl
    (by decide +kernel) (by decide +kernel) (by simp) s hs (.inr (.inr ⟨rfl, by simp⟩))
  rw [h2] at q1
  obtain rfl := Except.ok.inj q1
  refine ⟨s', q2, fun h => ?_, h1⟩
  have h' : (5 / 2 : ℚ) = mean 2 (fun x => absErrAt [BDD.var (m := .id) 0, .var 1] [.zero, .zero] x ^ 2) := h
  rw [h1] at h'
  norm_num at h'

/-! ## Order of the arguments -/

theorem bitFlipLoopF_comm (rnd : ℚ → ℚ) (n : Nat) : ∀ (f g : List (BDD m)) (r : ℚ),
    bitFlipLoopF rnd n f g r = bitFlipLoopF rnd n g f r
  | [], [], _ => rfl
  | [], _ :: _, _ => rfl
  | _ :: _, [], _ => rfl
  | a :: f, b :: g, r => by
      simp only [bitFlipLoopF]
      rw [BDD.xor_comm' a b]
      exact bitFlipLoopF_comm rnd n f g _

theorem bitErrorSumE_comm (A : AddEnv) : ∀ (f g : List (BDD m)) (acc : ADD m) (s : CTab),
    bitErrorSumE A f g acc s = bitErrorSumE A g f acc s
  | [], [], _, _ => rfl
  | [], _ :: _, _, _ => rfl
  | _ :: _, [], _, _ => rfl
  | a :: f, b :: g, acc, s => by
      simp only [bitErrorSumE]
      rw [BDD.xor_comm' a b]
      exact bitErrorSumE_comm A f g _ _

/-- The metrics that are not relative give the same `double` for the functions in either order. -/
theorem C118_symmetric (N : Nat) (f g : List (BDD m)) (rs : Nat → Nat → Nat → Nat) (fuel : Nat) (s : CTab)
    (hl : f.length = g.length) (met : BenchMetric)
    (hm : met ∈ [.worstCase, .approximateWorstCase5, .averageCase, .meanSquared, .errorRate, .averageBitFlip,
      .worstCaseBitFlip]) :
    computeErrorMetricF A dec cv lg N rs fuel f g met s = computeErrorMetricF A dec cv lg N rs fuel g f met s := by
  simp only [List.mem_cons, List.not_mem_nil, or_false] at hm
  rcases hm with rfl | rfl | rfl | rfl | rfl | rfl | rfl
  · simp only [computeErrorMetricF, worstCaseError]
    rw [bddAbsoluteDifference_comm]
  · simp only [computeErrorMetricF]
    rw [approximateWorstCaseError_comm]
  · simp only [computeErrorMetricF, averageCaseErrorF]
    rw [bddAbsoluteDifference_comm]
  · simp only [computeErrorMetricF, meanSquaredErrorF]
    rw [bddAbsoluteDifference_comm]
  · simp only [computeErrorMetricF, errorRateF]
    rw [miterLoop_comm f g _ hl, terminalLevel_comm]
  · simp only [computeErrorMetricF, averageBitFlipErrorF]
    rw [bitFlipLoopF_comm, maxSupportSize_append]
    rw [if_neg (fun h' => h' hl), if_neg (fun h' => h' hl.symm)]
  · simp only [computeErrorMetricF, worstCaseBitFlipErrorE]
    rw [bitErrorSumE_comm]
    rw [if_neg (fun h' => h' hl), if_neg (fun h' => h' hl.symm)]

/-! ## Several measurements -/

/-- Any sequence of measurements of functions with at most 39 bits in one manager: each value is as in
C118_metric_partial, whatever was measured before. -/
theorem C118_runs_partial (hr : Nearest A.rnd) (he : A.eps = 1 / 10 ^ 12) (hd : Dec100 dec) (hc : DecToDouble A.rnd cv)
    (hlg : Log2 lg) (N : Nat) (rs : Nat → Nat → Nat → Nat) (hrs : ∀ j i k, rs j i k ≠ 0 ∧ rs j i k ≤ randMax) (fuel : Nat)
    (hfuel : 2 ^ N + 62 ≤ fuel) (calls : List (List (BDD m) × List (BDD m) × BenchMetric))
    (hcalls : ∀ c ∈ calls, c.1.length = c.2.1.length ∧ c.1.length ≤ 39 ∧ Fits N c.1 ∧ Fits N c.2.1 ∧
      BenchRangeF m N c.1.length c.2.2 ∧ c.2.2 ≠ .worstCaseRelativeBinarySearch ∧ c.2.2 ≠ .meanSquared ∧
      c.2.2 ≠ .averageRelativeApprox ∧ c.2.2 ≠ .averageRelativeAdd) (s : CTab) (hs : s.Sep A.eps) :
    ∃ qs s', runMetricsF A dec cv lg N rs fuel calls s = .ok (qs, s') ∧ s'.Sep A.eps ∧
      List.Forall₂ (fun c q => ∃ t, IsBenchMetric N c.1 c.2.1 c.2.2 t ∧ 0 ≤ q ∧ |q - t| ≤ benchTol N c.1.length c.2.2 t)
        calls qs := by
  induction calls generalizing s with
  | nil => exact ⟨[], s, rfl, hs, .nil⟩
  | cons c cs ih =>
    obtain ⟨f, g, met⟩ := c
    obtain ⟨hl, h39, hf, hg, hran, hb, hms, ha, ha'⟩ := hcalls _ List.mem_cons_self
    obtain ⟨q, t, s1, q1, q2, q3, q4, q5⟩ := C118_metric_partial hr he hd hc hlg N f g met rs hrs fuel hfuel hl hf hg hran s hs
      hb hms ha ha'
    obtain ⟨qs, s', r1, r2, r3⟩ := ih (fun c hc => hcalls c (List.mem_cons_of_mem _ hc)) s1 (q5 h39)
    exact ⟨q :: qs, s', by simp only [runMetricsF, q1, r1, bind, Except.bind], r2, .cons ⟨t, q2, q3, q4⟩ r3⟩

/-- Two measurements of functions of two bits. -/
example : ∀ c ∈ [([BDD.var (m := .id) 0, .var 1], [BDD.zero (m := .id), .var 1], BenchMetric.worstCaseRelativeAdd),
      ([BDD.var 0, .var 1], [BDD.one, .var 0], .averageBitFlip)],
    c.1.length = c.2.1.length ∧ c.1.length ≤ 39 ∧ Fits 2 c.1 ∧ Fits 2 c.2.1 ∧ BenchRangeF .id 2 c.1.length c.2.2 ∧
      c.2.2 ≠ .worstCaseRelativeBinarySearch ∧ c.2.2 ≠ .meanSquared ∧ c.2.2 ≠ .averageRelativeApprox ∧
      c.2.2 ≠ .averageRelativeAdd := by
  have : Mgr.id.Mono := fun a b h => h
  intro c hc
  simp only [List.mem_cons, List.not_mem_nil, or_false] at hc
  rcases hc with rfl | rfl <;>
    exact ⟨rfl, by simp, by decide +kernel, by decide +kernel, by simp [BenchRangeF, BenchRange, this], by simp, by simp,
      by simp, by simp⟩

/-- One measurement of the tables of adders, up to 38 bits, for the metrics that C106 gives exactly or as bounds. -/
theorem C118_measure_adder_partial (hr : Nearest A.rnd) (he : A.eps = 1 / 10 ^ 12) (hd : Dec100 dec)
    (hc : DecToDouble A.rnd cv) (hlg : Log2 lg) (asserts : Bool) (a : ApproxAdder) (n p q : Nat) (h : AdderLegal n p q a)
    (hn : n ≤ 38) (met : BenchMetric) (hmet : met ∈ adderTableMetrics) (hms : met ≠ .meanSquared)
    (rs : Nat → Nat → Nat → Nat) (fuel : Nat) (s : CTab) (hs : s.Sep A.eps) :
    ∃ f g : List (BDD m), ∃ v t s', measureAdderF A dec cv lg asserts rs fuel met a n p q s = .ok (f, g, v, s') ∧
      s'.Sep A.eps ∧ (∀ x, uAt f x = opA n x + opB n x) ∧
      (∀ x, uAt g x + droppedAt n (adderStart n p q a) x = opA n x + opB n x) ∧ 0 ≤ v ∧
      |v - t| ≤ benchTol (2 * n) (n + 1) met t ∧
      (met = .averageRelativeApprox → IsBenchMetric (2 * n) g f met t) ∧
      (met ≠ .averageRelativeApprox → IsBenchMetric (2 * n) f g met t) := by
  obtain ⟨f, h1, h2⟩ := regularAdder_spec (m := m) n
  obtain ⟨g, g1, g2, g3, g4, -⟩ := C86_adder (m := m) asserts a n p q h
  have hf : ∀ x, uAt f x = opA n x + opB n x := fun x => (h2.exact_iff x).mpr (fun _ _ h => h)
  have hg : ∀ x, uAt g x + droppedAt n (adderStart n p q a) x = opA n x + opB n x := fun x => (g4 x).2.2.2.1
  have hl : f.length = g.length := by rw [h2.len, g2]
  have hl1 : f.length = n + 1 := h2.len
  have hran : BenchRangeF m (2 * n) f.length met := by
    rw [hl1]
    refine ⟨?_, by omega, by omega, fun _ => by omega⟩
    simp only [adderTableMetrics, List.mem_cons, List.not_mem_nil, or_false] at hmet
    rcases hmet with rfl | rfl | rfl | rfl | rfl | rfl | rfl | rfl <;> simp only [BenchRange] <;> omega
  have hind : ∀ (rs' : Nat → Nat → Nat → Nat) (fuel' : Nat), computeErrorMetricF A dec cv lg (2 * n) rs fuel f g met s =
      computeErrorMetricF A dec cv lg (2 * n) rs' fuel' f g met s := by
    intro rs' fuel'
    simp only [adderTableMetrics, List.mem_cons, List.not_mem_nil, or_false] at hmet
    rcases hmet with rfl | rfl | rfl | rfl | rfl | rfl | rfl | rfl <;> rfl
  by_cases ha : met = .averageRelativeApprox
  · obtain ⟨v, t, s', e1, e2, e3, e4, e5⟩ := C118_average_relative_partial (lg := lg) hr he hd hc (2 * n) f g rs fuel hl h2.fits
      g3 met (.inl ha) hran s hs
    rw [hl1] at e4
    exact ⟨f, g, v, t, s', by simp only [measureAdderF, h1, g1, e1, bind, Except.bind], e5 (by omega), hf, hg, e3, e4,
      fun _ => e2, fun h => absurd ha h⟩
  · obtain ⟨v, t, s', e1, e2, e3, e4, e5⟩ := C118_metric_partial hr he hd hc hlg (2 * n) f g met (fun _ _ _ => 1)
      (fun _ _ _ => by decide) (2 ^ (2 * n) + 62) le_rfl hl h2.fits g3 hran s hs
      (by rintro rfl; revert hmet; decide) hms ha (by rintro rfl; revert hmet; decide)
    rw [← hind] at e1
    rw [hl1] at e4
    exact ⟨f, g, v, t, s', by simp only [measureAdderF, h1, g1, e1, bind, Except.bind], e5 (by omega), hf, hg, e3, e4,
      fun h => absurd h ha, fun _ => e2⟩

/-- The comparison of adders with up to 17 bits prints exact numbers. -/
theorem C118_comparison_row (hr : Nearest A.rnd) (he : A.eps = 1 / 10 ^ 12) (hd : Dec100 dec) (hc : DecToDouble A.rnd cv)
    (asserts : Bool) (a : ApproxAdder) (n p q : Nat) (h : AdderLegal n p q a) (hn : n ≤ 17) (rs : Nat → Nat → Nat → Nat)
    (fuel : Nat) (s : CTab) (hs : s.Sep A.eps) :
    adderComparisonRowF A dec cv lg asserts rs fuel a n p q m s = adderComparisonRow asserts rs fuel a n p q m := by
  obtain ⟨f, h1, h2⟩ := regularAdder_spec (m := m) n
  obtain ⟨g, g1, g2, g3, g4, -⟩ := C86_adder (m := m) asserts a n p q h
  have hl : f.length = g.length := by rw [h2.len, g2]
  have hl1 : f.length = n + 1 := h2.len
  have key : ∀ met ∈ [BenchMetric.worstCase, .averageCase, .errorRate], ∀ s : CTab, s.Sep A.eps →
      ∃ v s', computeErrorMetric (2 * n) rs fuel f g met = .ok v ∧
        computeErrorMetricF A dec cv lg (2 * n) rs fuel f g met s = .ok (v, s') ∧ s'.Sep A.eps := by
    intro met hmet s hs
    refine C118_metric_exact hr he hd hc (2 * n) f g met rs fuel hl h2.fits g3 ?_ s hs (.inl ⟨?_, by omega⟩)
    · rintro rfl
      simp at hl1
    · simp only [List.mem_cons, List.not_mem_nil, or_false] at hmet ⊢
      tauto
  obtain ⟨v1, s1, a1, b1, c1⟩ := key .errorRate (by simp) s hs
  obtain ⟨v2, s2, a2, b2, c2⟩ := key .averageCase (by simp) s1 c1
  obtain ⟨v3, s3, a3, b3, c3⟩ := key .worstCase (by simp) s2 c2
  simp only [adderComparisonRowF, adderComparisonRow, h1, g1, a1, b1, a2, b2, a3, b3, bind, Except.bind]

/-- The four rows. -/
theorem C118_comparison (hr : Nearest A.rnd) (he : A.eps = 1 / 10 ^ 12) (hd : Dec100 dec) (hc : DecToDouble A.rnd cv)
    (asserts : Bool) (rs : Nat → Nat → Nat → Nat) (fuel : Nat) (s : CTab) (hs : s.Sep A.eps) :
    adderComparisonRows.map (fun e => adderComparisonRowF A dec cv lg asserts rs fuel e.1 e.2.1 e.2.2.1 e.2.2.2 m s) =
      [.ok ("GeAr_N16_R6_P4".toList, 63 / 2048, 63 / 2, 1024), .ok ("GeAr_N16_R4_P4".toList, 15 / 256, 255 / 2, 4096),
        .ok ("GeAr_N16_R4_P8".toList, 15 / 8192, 15 / 2, 4096),
        .ok ("GeAr_N16_R2_P4".toList, 1893 / 16384, 1023 / 2, 16640)] := by
  rw [← C106_comparison (m := m) asserts rs fuel]
  refine List.map_congr_left fun e he' => ?_
  refine C118_comparison_row hr he hd hc asserts _ _ _ _ (C106_tables.2.2.2.2.2 e (by simp [he'])).1 ?_ rs fuel s hs
  have : ∀ e ∈ adderComparisonRows, e.2.1 ≤ 17 := by decide
  exact this e he'

example : AdderLegal 32 8 0 .aca1 ∧ BenchMetric.averageBitFlip ∈ adderTableMetrics ∧ (32 : Nat) ≤ 38 := by
  refine ⟨?_, by decide, by norm_num⟩
  simp [AdderLegal]

end Verif

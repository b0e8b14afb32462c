import Verif.SpecFloatAddBucket
import Verif.Proofs.FloatAddBucket
import Verif.Props.FloatAdd
import Verif.Props.FloatHelper

/-! # C128 the search with metrics computed on ADDs -/

namespace Verif

variable {m : Mgr} {A : AddEnv} {rnd dec cv : ℚ → ℚ}

/-! ## The metrics -/

theorem DecToDouble.close (hr : Nearest rnd) (hc : DecToDouble rnd cv) {v : ℚ} (h0 : 0 ≤ v) (hb : v ≤ 2 ^ 600) :
    0 ≤ cv v ∧ |cv v - v| ≤ 1 / 2 ^ 52 * v + 1 / 10 ^ 70 := by
  rcases le_or_gt (1 / 2 ^ 600) v with h | h
  · obtain ⟨h1, h2⟩ := hc.near hr (.inr h) hb
    exact ⟨h1, h2.trans (le_add_of_nonneg_right (by norm_num))⟩
  · obtain ⟨q', c1, c2⟩ := hc.conv v (by rw [abs_of_nonneg h0]; exact hb.trans (pow_le_big (by norm_num)))
    rw [abs_of_nonneg h0] at c1
    have c1' := abs_le.mp c1
    have hq0 : 0 ≤ q' := by linarith only [c1'.1, h0]
    have hv1 : v ≤ 1 / 10 ^ 71 := h.le.trans ((one_div_le_one_div_of_le (by norm_num)
      (pow_le_pow_right₀ one_le_two (by norm_num) : (2 : ℚ) ^ 250 ≤ 2 ^ 600)).trans (by norm_num))
    have hq1 : q' ≤ 2 * v := by linarith only [c1'.2, h0]
    have hqb : |q'| ≤ 2 ^ 1023 := by
      rw [abs_of_nonneg hq0]
      refine le_trans ?_ two_le_big
      linarith only [hq1, hv1]
    have hn := hr.near q' 0 hqb isDouble_zero
    rw [zero_sub, abs_neg, abs_of_nonneg hq0] at hn
    have hn' := abs_le.mp hn
    rw [c2]
    refine ⟨hr.nonneg hq0 ((abs_of_nonneg hq0).symm.trans_le hqb), abs_le.mpr ⟨?_, ?_⟩⟩
    · linarith only [hn'.1, hv1, h0]
    · linarith only [hn'.2, hq1, hv1, h0]

/-- Every metric of the search but the mean squared error, from any table in which whole numbers stand apart, which they
do afterwards as well: it returns the true value up to rounding and, for relative errors, the constants found in the
table. -/
theorem C128_metric (hr : Nearest A.rnd) (he : A.eps = 1 / 10 ^ 12) (hd : Dec100 dec) (hc : DecToDouble A.rnd cv)
    (N : Nat) (f g : List (BDD m)) (hl : f.length = g.length) (hf : Fits N f) (hg : Fits N g) (met : ErrorMetric)
    (hmet : met ≠ .meanSquared) (hN : N ≤ 1000) (hn : f.length ≤ 39) (hrange : MetricRange m N f.length met)
    (c : CTab) (hs : c.Sep A.eps) :
    ∃ q e c', metricFunctionE A dec cv met f g c = .ok (q, c') ∧ c'.Sep A.eps ∧ IsMetric N f g met e ∧ 0 ≤ q ∧
      |q - e| ≤ (N + f.length + 2) / 2 ^ 52 * e + tableSlack met := by
  have h0 : 0 < A.eps := by rw [he]; norm_num
  have h1 : A.eps ≤ 1 := by rw [he]; norm_num
  have h3 : A.eps ≤ 3 / 2 ^ 41 := by rw [he]; norm_num
  have hNq : (0 : ℚ) ≤ N := Nat.cast_nonneg N
  have hnq : (0 : ℚ) ≤ f.length := Nat.cast_nonneg _
  have hacre : MetricRange m N f.length .averageCaseRelative → ∃ q c',
      (do let p ← acreAddE A dec .baseTwo f g c; .ok (cv p.1, p.2) : Except Fault (ℚ × CTab)) = .ok (q, c') ∧
      c'.Sep A.eps ∧ 0 ≤ q ∧ |q - mean N (relErrAt .baseTwo f g)| ≤
        (N + f.length + 2) / 2 ^ 52 * mean N (relErrAt .baseTwo f g) + 3 / 10 ^ 12 := by
    rintro ⟨hm, hN64⟩
    obtain ⟨p, s', r1, r2, r3⟩ := C116_acre_add hr h0 h1 hd hm .baseTwo f g (by simp [SignOk]) (by simp [SignOk])
      (by omega) (by omega) N hf hg hN64 c hs
    have hsep : s'.Sep A.eps := AddCall.run_sep (dec := dec) hr h0 h1 h3 (.acre .baseTwo f g) ⟨hn, by omega⟩ c s' hs
      (by simp only [AddCall.run, r1]; rfl)
    have hme : IsMetric N f g .averageCaseRelative (mean N (relErrAt .baseTwo f g)) := rfl
    obtain ⟨e0, e1⟩ := isMetric_range hl (by decide) hme
    have e2 : mean N (relErrAt .baseTwo f g) ≤ 2 ^ 39 :=
      e1.trans ((metricCap_pow _).trans (pow_le_pow_right₀ (by norm_num) hn))
    obtain ⟨e, hee⟩ : ∃ e, e = mean N (relErrAt .baseTwo f g) := ⟨_, rfl⟩
    rw [← hee] at r3 e0 e2 ⊢
    rw [he] at r3
    have r3' := abs_le.mp r3
    norm_num at r3' e2
    have hpb : p ≤ 2 ^ 600 := by
      refine le_trans ?_ (pow_le_big (show 50 ≤ 600 by norm_num))
      norm_num
      linarith only [r3'.2, e2, e0]
    obtain ⟨q1, q2⟩ := hc.close hr r2 hpb
    have q2' := abs_le.mp q2
    norm_num at q2'
    refine ⟨cv p, s', by simp only [r1, bind, Except.bind], hsep, q1, ?_⟩
    have hfac : 2 / 2 ^ 52 * e ≤ (N + f.length + 2) / 2 ^ 52 * e :=
      mul_le_mul_of_nonneg_right (div_le_div_of_nonneg_right (by linarith only [hNq, hnq]) (by norm_num)) e0
    refine le_trans ?_ (add_le_add_left hfac _)
    norm_num
    rw [abs_le]
    constructor
    · linarith only [q2'.1, r3'.1, r3'.2, e2, e0]
    · linarith only [q2'.2, r3'.1, r3'.2, e2, e0]
  have hround : met ∈ roundedMetrics → met ≠ .worstCaseBitFlip → tableSlack met = 0 → ∃ q e c',
      (do let v ← metricFunctionF A.rnd dec cv met f g; .ok (v, c) : Except Fault (ℚ × CTab)) = .ok (q, c') ∧
      c'.Sep A.eps ∧ IsMetric N f g met e ∧ 0 ≤ q ∧ |q - e| ≤ (N + f.length + 2) / 2 ^ 52 * e + tableSlack met := by
    intro hm _ ht
    obtain ⟨q, e, q1, q2, q3, q4⟩ := C124_metric hr hd hc N f g hl hf hg met hm hN (by omega) hrange
    exact ⟨q, e, c, by simp only [q1, bind, Except.bind], hs, q2, q3, by rw [ht, add_zero]; exact q4⟩
  cases met with
  | worstCase => exact hround (by simp [roundedMetrics]) (by decide) rfl
  | worstCasePercent => exact hround (by simp [roundedMetrics]) (by decide) rfl
  | averageCase => exact hround (by simp [roundedMetrics]) (by decide) rfl
  | errorRate => exact hround (by simp [roundedMetrics]) (by decide) rfl
  | averageBitFlip => exact hround (by simp [roundedMetrics]) (by decide) rfl
  | meanSquared => exact absurd rfl hmet
  | worstCaseRelative =>
    obtain ⟨hm, hN64⟩ := hrange
    obtain ⟨M, q, s', hM, r1, r2, r3⟩ := C116_wcre_add hr h0 h1 hm .baseTwo f g (by simp [SignOk]) (by simp [SignOk])
      (by omega) (by omega) N hf hg hN64 c hs
    have hsep : s'.Sep A.eps := AddCall.run_sep (dec := dec) hr h0 h1 h3 (.wcre .baseTwo f g) ⟨hn, by omega⟩ c s' hs
      (by simp only [AddCall.run, r1]; rfl)
    have hme : IsMetric N f g .worstCaseRelative M := hM
    obtain ⟨e0, -⟩ := isMetric_range hl (by decide) hme
    refine ⟨q, M, s', r1, hsep, hM, r2, r3.trans ?_⟩
    have hfac : 2 / 2 ^ 52 * M ≤ (N + f.length + 2) / 2 ^ 52 * M :=
      mul_le_mul_of_nonneg_right (div_le_div_of_nonneg_right (by linarith only [hNq, hnq]) (by norm_num)) e0
    refine le_trans ?_ (add_le_add_left hfac _)
    rw [he]
    norm_num [tableSlack]
    linarith only [e0]
  | averageCaseRelative =>
    obtain ⟨q, c', q1, q2, q3, q4⟩ := hacre hrange
    exact ⟨q, _, c', q1, q2, rfl, q3, q4⟩
  | averageCaseRelativeAdd =>
    obtain ⟨q, c', q1, q2, q3, q4⟩ := hacre hrange
    exact ⟨q, _, c', q1, q2, rfl, q3, q4⟩
  | worstCaseBitFlip =>
    obtain ⟨v, s', r1, r2, r3⟩ := C116_worst_case_bit_flip_error hr h0 h1 f g hl hrange c hs
    have hme : IsMetric N f g .worstCaseBitFlip v := by
      obtain ⟨⟨x, hx⟩, hmax⟩ := r3
      exact ⟨⟨x, congrArg Nat.cast hx⟩, fun y => Nat.cast_le.mpr (hmax y)⟩
    obtain ⟨e0, e1⟩ := isMetric_range hl (by decide) hme
    have hv : v ≤ 2 ^ 53 := by
      have h5 : (v : ℚ) ≤ f.length := e1
      have : v ≤ f.length := by exact_mod_cast h5
      exact this.trans (hn.trans (by norm_num))
    refine ⟨v, v, s', ?_, r2, hme, e0, ?_⟩
    · simp only [metricFunctionE, r1, bind, Except.bind, hr.small v hv]
    · rw [sub_self, abs_zero]
      exact add_nonneg (mul_nonneg (div_nonneg (by linarith only [hNq, hnq]) (by norm_num)) e0) le_rfl

/-- The mean squared error as it is computed, which is at least a third of the true one (missing for the full claim: see
C110_metric_mean_squared_partial), makes no constants. -/
theorem C128_metric_mean_squared_partial (hr : Nearest A.rnd) (hd : Dec100 dec) (hc : DecToDouble A.rnd cv) (N : Nat)
    (f g : List (BDD m)) (hl : f.length = g.length) (hf : Fits N f) (hg : Fits N g)
    (hrange : MetricRange m N f.length .meanSquared) (c : CTab) :
    ∃ q e, metricFunctionE A dec cv .meanSquared f g c = .ok (q, c) ∧ IsMetric N f g .meanSquared e ∧ 0 ≤ q ∧
      q ≤ (1 + (N + 2) / 2 ^ 52) * e ∧ (1 - (N + 2) / 2 ^ 52) * e ≤ 3 * q := by
  obtain ⟨q, e, q1, q2, q3, q4, q5, -⟩ := C110_metric_mean_squared_partial hr hd hc N f g hl hf hg hrange
  exact ⟨q, e, by simp only [metricFunctionE, q1, bind, Except.bind], q2, q3, q4, q5⟩

/-- The metrics the other theorems on rounding cover keep the table as it is. -/
theorem C128_metric_same (met : ErrorMetric) (hmet : met ∉ [ErrorMetric.worstCaseRelative, .averageCaseRelative,
      .averageCaseRelativeAdd, .worstCaseBitFlip]) (f g : List (BDD m)) (c : CTab) :
    metricFunctionE A dec cv met f g c = (do let v ← metricFunctionF A.rnd dec cv met f g; .ok (v, c)) := by
  cases met <;> first | rfl | simp at hmet

/-! ## The search, for any metrics that make constants -/

section Search

variable {I : CTab → Prop}

/-- For an invariant of the table that holds at the call and is kept by the metrics: it holds afterwards, the values of
a filled bucket are ones the metrics give with such a table, and they are below the limits of its place in the grid up
to a relative error of `2 ^ -51`. -/
theorem C128_error_bounds (hr : Nearest rnd) (fuel : Nat) (f : List (BDD m)) (ms : List (MetricDimE m))
    (ops : List (OpFun m)) (populate : Bool) (c : CTab) (r : List (Bucket m)) (c' : CTab)
    (hk : ∀ d ∈ ms, ∀ g v c1 c2, Reach ops f g → I c1 → d.metric f g c1 = .ok (v, c2) → I c2 ∧ |v| ≤ 2 ^ 900)
    (hI : I c) (hprod : (ms.map (·.gridSize)).prod < 2 ^ 64) (hgrid : ∀ d ∈ ms, d.gridSize ≤ 2 ^ 53)
    (hbound : ∀ d ∈ ms, 1 / 2 ^ 60 ≤ d.bound)
    (h : bucketGreedyMinimizeE rnd fuel f ms ops populate c = .ok (r, c')) :
    I c' ∧ r.length = (ms.map (·.gridSize)).prod ∧
    ∀ idx b, InBox idx (ms.map (·.gridSize)) → r[rank (ms.map (·.gridSize)) idx]? = some b →
      b.isEmpty = false → b.metricValues.length = ms.length ∧
      ∀ (k : Nat) (d : MetricDimE m) (i : Nat) (v : ℚ), ms[k]? = some d → idx[k]? = some i →
        b.metricValues[k]? = some v → (∃ c1 c2, I c1 ∧ d.metric f b.function c1 = .ok (v, c2)) ∧
          v < d.bound * (i + 1) / d.gridSize * (1 + 1 / 2 ^ 51) ∧ v < d.bound * (1 + 1 / 2 ^ 51) := by
  have hb0 : ∀ d ∈ ms, 0 < d.bound := fun d hd => lt_of_lt_of_le (by norm_num) (hbound d hd)
  obtain ⟨h1, h2, h3⟩ := bucketGreedyMinimizeE_inv hprod
    (fun d hd g v c1 c2 hg h1 h2 => (hk d hd g v c1 c2 hg h1 h2).1) hI h
  refine ⟨h2, h1.len, fun idx b hbox hb hne => ?_⟩
  have hgood := h1.good _ _ hb
  obtain ⟨-, idx', hmet, hle⟩ := hgood.full hne
  rw [unrank_rank hbox] at hle
  refine ⟨hmet.values_length, fun k d i v hd hi hv => ?_⟩
  have hdm := List.mem_of_getElem? hd
  obtain ⟨⟨c1, c2, g1, g2⟩, hc⟩ := hmet.get hle hd hi hv
  obtain ⟨j, hj, hlt⟩ := getElem?_forall₂ hbox hi
  rw [List.getElem?_map, hd] at hj
  cases hj
  have hg0 : 0 < d.gridSize := lt_of_le_of_lt (Nat.zero_le i) hlt
  have := coordinateF_lt hr hg0 (hgrid d hdm) (hk d hdm _ v c1 c2 hgood.reach g1 g2).2 (hbound d hdm) hc
  exact ⟨⟨c1, c2, g1, g2⟩, this,
    this.trans_le (mul_le_mul_of_nonneg_right (below_cell (hb0 d hdm).le hlt) (by norm_num))⟩

/-- Whatever constants the metrics make: buckets hold functions made from the original one by operators, with their
sizes; a filled bucket is smaller than the original, an empty one holds it. -/
theorem C128_sizes (fuel : Nat) (f : List (BDD m)) (ms : List (MetricDimE m)) (ops : List (OpFun m))
    (populate : Bool) (c : CTab) (r : List (Bucket m)) (c' : CTab) (hprod : (ms.map (·.gridSize)).prod < 2 ^ 64)
    (h : bucketGreedyMinimizeE rnd fuel f ms ops populate c = .ok (r, c')) :
    ∀ b ∈ r, Reach ops f b.function ∧ b.bddSize = nodeCount b.function ∧ b.bddSize ≤ nodeCount f ∧
      (b.isEmpty = false → b.bddSize < nodeCount f) ∧ (b.isEmpty = true → b.function = f) := by
  intro b hb
  obtain ⟨i, hi⟩ := List.mem_iff_getElem?.mp hb
  have := (bucketGreedyMinimizeE_inv (I := fun _ => True) hprod (fun _ _ _ _ _ _ _ _ _ => trivial) trivial h).1.good i b hi
  exact ⟨this.reach, this.size, this.le, fun h => (this.full h).1, this.empty⟩

/-- Whatever constants the metrics make: with larger coordinates the function found is not larger. -/
theorem C128_front (fuel : Nat) (f : List (BDD m)) (ms : List (MetricDimE m)) (ops : List (OpFun m)) (c : CTab)
    (r : List (Bucket m)) (c' : CTab) (hprod : (ms.map (·.gridSize)).prod < 2 ^ 64)
    (h : bucketGreedyMinimizeE rnd fuel f ms ops true c = .ok (r, c')) (i j : List Nat)
    (hi : InBox i (ms.map (·.gridSize))) (hj : InBox j (ms.map (·.gridSize))) (hij : LeIdx i j) :
    ∃ b b', r[rank (ms.map (·.gridSize)) i]? = some b ∧ r[rank (ms.map (·.gridSize)) j]? = some b' ∧
      b'.bddSize ≤ b.bddSize := by
  have hinv := (bucketGreedyMinimizeE_inv (I := fun _ => True) hprod (fun _ _ _ _ _ _ _ _ _ => trivial) trivial h).1
  have h1 := rank_lt hi
  have h2 := rank_lt hj
  rw [← hinv.len] at h1 h2
  refine ⟨_, _, List.getElem?_eq_getElem h1, List.getElem?_eq_getElem h2, ?_⟩
  exact hinv.front rfl _ _ _ _ (List.getElem?_eq_getElem h1) (List.getElem?_eq_getElem h2)
    (by rw [unrank_rank hi, unrank_rank hj]; exact hij)

/-- Whatever constants the metrics make, the search ends. -/
theorem C128_terminates (f : List (BDD m)) (ms : List (MetricDimE m)) (ops : List (OpFun m)) (populate : Bool)
    (hop : ∀ op ∈ ops, ∀ g, op g ≠ .error .fuel) (hm : ∀ d ∈ ms, ∀ g c, d.metric f g c ≠ .error .fuel) (c : CTab)
    (fuel : Nat) (hfuel : (ms.map (·.gridSize)).prod * nodeCount f + 1 ≤ fuel) :
    bucketGreedyMinimizeE rnd fuel f ms ops populate c ≠ .error .fuel := by
  intro h
  unfold bucketGreedyMinimizeE at h
  split at h
  · cases h
  · dsimp only at h
    rcases bind_fuel h with h | ⟨first, -, h⟩
    · exact createIndex_ne_fuel _ _ h
    · exact searchLoopE_ne_fuel hop hm ((initial_work (totalBuckets_le _) first).trans hfuel) h

/-- The search returns when operators and metrics are defined on all functions that can come up and the rounded
coordinates are in the range of `std::size_t`, for all tables with the invariant. -/
theorem C128_returns (f : List (BDD m)) (ms : List (MetricDimE m)) (ops : List (OpFun m)) (populate : Bool)
    (hne : ms ≠ []) (hpos : ∀ d ∈ ms, 0 < d.gridSize) (hprod : (ms.map (·.gridSize)).prod < 2 ^ 64)
    (hop : ∀ g, Reach ops f g → ∀ op ∈ ops, ∃ h, op g = .ok h)
    (hm : ∀ g, Reach ops f g → ∀ d ∈ ms, d.bound ≠ 0 ∧ ∀ c, I c → ∃ v c', d.metric f g c = .ok (v, c') ∧ I c' ∧
      0 ≤ coordinateF rnd d.gridSize v d.bound ∧ coordinateF rnd d.gridSize v d.bound < 2 ^ 64) (c : CTab) (hI : I c)
    (fuel : Nat) (hfuel : (ms.map (·.gridSize)).prod * nodeCount f + 1 ≤ fuel) :
    ∃ r c', bucketGreedyMinimizeE rnd fuel f ms ops populate c = .ok (r, c') ∧ I c' := by
  have hpos' : ∀ b ∈ ms.map (·.gridSize), b ≠ 0 := by
    intro b hb
    obtain ⟨d, hd, rfl⟩ := List.mem_map.mp hb
    exact Nat.pos_iff_ne_zero.mp (hpos d hd)
  have hl : ms.length ≠ 0 := fun h => hne (List.length_eq_zero_iff.mp h)
  have hk : KeepsTable I ops f ms := by
    intro d hd g v c c' hg hI h
    obtain ⟨-, h2⟩ := hm g hg d hd
    obtain ⟨v', c'', h3, h4, -⟩ := h2 c hI
    rw [h] at h3
    cases h3
    exact h4
  obtain ⟨p, hp⟩ := searchLoopE_total (rnd := rnd) (populate := populate) hpos' hprod hk
    ⟨hop, fun g hg d hd => ⟨(hm g hg d hd).1, fun c hc =>
      let ⟨v, c', h1, _, h2⟩ := (hm g hg d hd).2 c hc; ⟨v, c', h1, h2⟩⟩⟩
    (fuel := fuel) (test := setInsert (unrank (ms.map (·.gridSize)) 0) []) hI
    (initial_invE hpos' hprod) (fun b hb => by rw [List.eq_of_mem_replicate hb]; simp)
    (fun v hv => by
      rcases mem_setInsert.mp hv with rfl | hv
      · exact unrank_inBox hpos' 0
      · simp at hv)
    ((initial_work (totalBuckets_le _) _).trans hfuel)
  have he : bucketGreedyMinimizeE rnd fuel f ms ops populate c = .ok p := by
    unfold bucketGreedyMinimizeE
    rw [if_neg hl]
    dsimp only
    rw [createIndex_eq hpos']
    exact hp
  exact ⟨p.1, p.2, he, (bucketGreedyMinimizeE_inv hprod hk hI he).2.1⟩

end Search

/-! ## The helper -/

theorem below_bound_slack {N n : Nat} {B v e s : ℚ} (hN : N ≤ 1000) (hn : n ≤ 1000) (hB : 0 < B) (hs : 0 ≤ s)
    (h1 : |v - e| ≤ (N + n + 2) / 2 ^ 52 * e + s) (h2 : v < B * (1 + 1 / 2 ^ 51)) :
    e < B * (1 + (N + n + 4) / 2 ^ 51) + 2 * s := by
  have a : (N : ℚ) ≤ 1000 := by exact_mod_cast hN
  have b : (n : ℚ) ≤ 1000 := by exact_mod_cast hn
  have a0 : (0 : ℚ) ≤ N := Nat.cast_nonneg N
  have b0 : (0 : ℚ) ≤ n := Nat.cast_nonneg n
  obtain ⟨t, ht⟩ : ∃ t : ℚ, t = ((N : ℚ) + n + 2) / 2 ^ 52 := ⟨_, rfl⟩
  have t0 : 0 ≤ t := by rw [ht]; exact div_nonneg (by linarith only [a0, b0]) (by norm_num)
  have t1 : t ≤ 1 / 2 ^ 40 := by
    rw [ht, div_le_iff₀ (by norm_num)]
    linarith only [a, b]
  have e1 : ((N : ℚ) + n + 4) / 2 ^ 51 = 2 * t + 1 / 2 ^ 50 := by rw [ht]; ring
  rw [e1]
  rw [← ht] at h1
  have h3 := (abs_le.mp h1).1
  norm_num at t1 h2 ⊢
  by_contra hcon
  rw [not_lt] at hcon
  have h4 : e * (1 - t) < B * (2251799813685249 / 2251799813685248) + s := by linarith only [h3, h2]
  have h5 := mul_le_mul_of_nonneg_right hcon (show (0 : ℚ) ≤ 1 - t by linarith only [t1])
  have h6 : 0 ≤ s * (1 - 2 * t) := mul_nonneg hs (by linarith only [t1])
  have h7 : 0 ≤ t * (1 / 2 - t) := mul_nonneg t0 (by linarith only [t1])
  have h8 : 0 ≤ B * (t * (1 / 2 - t)) := mul_nonneg hB.le h7
  nlinarith only [h4, h5, h6, h8, hB, t0, t1]

/-- One metric on a function that can come up. -/
theorem metricE_value (hr : Nearest A.rnd) (he : A.eps = 1 / 10 ^ 12) (hd : Dec100 dec) (hc : DecToDouble A.rnd cv)
    {N : Nat} {f g : List (BDD m)} (hl : g.length = f.length) (hf : Fits N f) (hg : Fits N g) {met : ErrorMetric}
    (hN : N ≤ 1000) (hn : f.length ≤ 39) (hrange : MetricRange m N f.length met) {c : CTab} (hs : c.Sep A.eps) :
    ∃ v e c', metricFunctionE A dec cv met f g c = .ok (v, c') ∧ c'.Sep A.eps ∧ 0 ≤ v ∧ v ≤ 2 ^ 900 ∧
      IsMetric N f g met e ∧
      (met ≠ .meanSquared → |v - e| ≤ (N + f.length + 2) / 2 ^ 52 * e + tableSlack met ∧
        v ≤ 2 * metricCap f.length met) ∧
      (met = .meanSquared → v ≤ (1 + (N + 2) / 2 ^ 52) * e ∧ (1 - (N + 2) / 2 ^ 52) * e ≤ 3 * v) := by
  have a : (N : ℚ) ≤ 1000 := by exact_mod_cast hN
  have b : (f.length : ℚ) ≤ 39 := by exact_mod_cast hn
  by_cases hms : met = .meanSquared
  · subst hms
    obtain ⟨q, e', q1, q2, q3, q4, q5⟩ := C128_metric_mean_squared_partial hr hd hc N f g hl.symm hf hg hrange c
    have q2' : e' = mean N (fun x => absErrAt f g x ^ 2) := q2
    have he0 : 0 ≤ e' := q2' ▸ mean_nonneg N (fun x => sq_nonneg _)
    have hcap : e' ≤ 2 ^ (2 * f.length) := by
      have := mean_mono N (g := fun x => absErrAt f g x ^ 2) (h := fun _ => 2 ^ (2 * f.length)) (fun x => by
        obtain ⟨a1, a2⟩ := absErrAt_range hl.symm x
        have a3 : absErrAt f g x ≤ 2 ^ f.length := le_trans a2 (by linarith)
        rw [mul_comm, pow_mul]
        exact pow_le_pow_left₀ a1 a3 2)
      rwa [mean_const, ← q2'] at this
    refine ⟨q, e', c, q1, hs, q3, q4.trans ?_, q2, fun h => absurd rfl h, fun _ => ⟨q4, q5⟩⟩
    have b : 1 + ((N : ℚ) + 2) / 2 ^ 52 ≤ 2 := by
      have : ((N : ℚ) + 2) / 2 ^ 52 ≤ 1 := by
        rw [div_le_one (by norm_num)]
        linarith only [a]
      linarith only [this]
    calc (1 + ((N : ℚ) + 2) / 2 ^ 52) * e' ≤ 2 * 2 ^ (2 * f.length) := mul_le_mul b hcap he0 (by norm_num)
      _ = 2 ^ (2 * f.length + 1) := by rw [pow_succ, mul_comm]
      _ ≤ 2 ^ 900 := pow_le_pow_right₀ (by norm_num) (by omega)
  · obtain ⟨q, e, c', q1, q2, q3, q4, q5⟩ := C128_metric hr he hd hc N f g hl.symm hf hg met hms hN hn hrange c hs
    obtain ⟨e0, e1⟩ := isMetric_range hl.symm hms q3
    have hslack : tableSlack met ≤ 1 / 4 * metricCap f.length met := by
      have h1 : (1 : ℚ) ≤ 2 ^ f.length := one_le_pow₀ (by norm_num)
      cases met <;> simp only [tableSlack, metricCap] <;> linarith only [h1, Nat.cast_nonneg (α := ℚ) f.length]
    have hcap : q ≤ 2 * metricCap f.length met := by
      have h2 : ((N : ℚ) + f.length + 2) / 2 ^ 52 * e ≤ 1 / 4 * e := by
        refine mul_le_mul_of_nonneg_right ?_ e0
        rw [div_le_iff₀ (by norm_num)]
        linarith only [a, b]
      linarith only [(abs_le.mp q5).2, h2, hslack, e1, e0]
    refine ⟨q, e, c', q1, q2, q4, hcap.trans ?_, q3, fun _ => ⟨q5, hcap⟩, fun h => absurd h hms⟩
    calc 2 * metricCap f.length met ≤ 2 * 2 ^ f.length := mul_le_mul_of_nonneg_left (metricCap_pow met) (by norm_num)
      _ = 2 ^ (f.length + 1) := by rw [pow_succ, mul_comm]
      _ ≤ 2 ^ 900 := pow_le_pow_right₀ (by norm_num) (by omega)

/-- What the helper returns with all metrics as they are computed: as in `C124_result_partial`, now with relative errors,
which are off by the constants found in the table as well.  (Missing for the full claim: the mean squared error may be
as small as a third of the true one, as with exact numbers.) -/
theorem C128_result_partial (hr : Nearest A.rnd) (he : A.eps = 1 / 10 ^ 12) (hd : Dec100 dec)
    (hc : DecToDouble A.rnd cv) (asserts : Bool) (fuel : Nat) (files : String → List AigEvent × Bool) (rs : Nat → Nat)
    (info : MinimizationInfo) (r : MinimizationResult m) (c c' : CTab) (hs : c.Sep A.eps)
    (f : List (BDD m)) (N : Nat) (hload : loadInput asserts files info.input = .ok f) (hN : Fits N f)
    (hN' : N ≤ 1000) (hn : f.length ≤ 39) (hprod : (info.metrics.map (·.gridSize)).prod < 2 ^ 64)
    (hmet : ∀ d ∈ info.metrics, d.gridSize ≤ 2 ^ 53 ∧ 1 / 2 ^ 60 ≤ d.bound ∧ MetricRange m N f.length d.metric)
    (h : bucketMinimizeHelperE A dec cv asserts fuel files rs info c = .ok (r, c')) :
    c'.Sep A.eps ∧ r.originalSize = nodeCount f ∧
      r.smallestFunction ∈ r.allBuckets ∧ (∀ b ∈ r.allBuckets, r.smallestFunction.bddSize ≤ b.bddSize) ∧
      r.allBuckets.length = (info.metrics.map (·.gridSize)).prod ∧
      ∀ b ∈ r.allBuckets, b.bddSize = nodeCount b.function ∧ b.function.length = f.length ∧ Fits N b.function ∧
        (b.isEmpty = true → b.function = f) ∧
        (b.isEmpty = false → nodeCount b.function < nodeCount f ∧
          b.metricValues.length = info.metrics.length ∧
          ∀ (k : Nat) (d : SimpleMetricDim) (v : ℚ), info.metrics[k]? = some d →
            b.metricValues[k]? = some v → 0 ≤ v ∧ v < d.bound * (1 + 1 / 2 ^ 51) ∧
            ∃ e, IsMetric N f b.function d.metric e ∧
              (d.metric ≠ .meanSquared → |v - e| ≤ (N + f.length + 2) / 2 ^ 52 * e + tableSlack d.metric ∧
                e < d.bound * (1 + (N + f.length + 4) / 2 ^ 51) + 2 * tableSlack d.metric) ∧
              (d.metric = .meanSquared → v ≤ (1 + (N + 2) / 2 ^ 52) * e ∧ (1 - (N + 2) / 2 ^ 52) * e ≤ 3 * v)) := by
  unfold bucketMinimizeHelperE at h
  obtain ⟨f', hload', h⟩ := bind_ok h
  rw [hload] at hload'
  cases hload'
  obtain ⟨ops, hops, h⟩ := bind_ok h
  obtain ⟨⟨bs, c1⟩, hbs, h⟩ := bind_ok h
  obtain ⟨sm, hsm, h⟩ := bind_ok h
  cases h
  have hprod' : ((metricDimsE (m := m) A dec cv info.metrics).map (·.gridSize)).prod < 2 ^ 64 := by
    rwa [metricDimsE_grid]
  have hgrids : (metricDimsE (m := m) A dec cv info.metrics).map (·.gridSize) = info.metrics.map (·.gridSize) :=
    metricDimsE_grid A dec cv info.metrics
  have hmem : ∀ d ∈ metricDimsE (m := m) A dec cv info.metrics, ∃ e ∈ info.metrics,
      (⟨e.gridSize, metricFunctionE A dec cv e.metric, e.bound⟩ : MetricDimE m) = d := fun d hd => by
    rw [metricDimsE_eq] at hd
    exact List.mem_map.mp hd
  obtain ⟨t1, hlen, herr⟩ := C128_error_bounds (I := fun c => c.Sep A.eps) hr fuel f _ ops _ c bs c1
    (fun d hd' g v c1 c2 hg h1 h2 => by
      obtain ⟨e, hem, rfl⟩ := hmem d hd'
      obtain ⟨g1, g3⟩ := generatedF hops hg
      obtain ⟨v', e', c3, w1, w2, w3, w4, -⟩ := metricE_value hr he hd hc g1 hN (g3 N hN) hN' hn (hmet e hem).2.2 h1
      change metricFunctionE A dec cv e.metric f g c1 = _ at h2
      rw [w1] at h2
      cases h2
      exact ⟨w2, (abs_of_nonneg w3).trans_le w4⟩) hs hprod'
    (fun d hd' => by obtain ⟨e, hem, rfl⟩ := hmem d hd'; exact (hmet e hem).1)
    (fun d hd' => by obtain ⟨e, hem, rfl⟩ := hmem d hd'; exact (hmet e hem).2.1) hbs
  have hsize := C128_sizes fuel f _ ops _ c bs c1 hprod' hbs
  rw [hgrids] at hlen herr
  refine ⟨t1, rfl, ?_, ?_, hlen, fun b hb => ?_⟩
  · cases bs with
    | nil => cases hsm
    | cons b bs => cases hsm; exact (minBucketLoop_spec b bs).1
  · cases bs with
    | nil => cases hsm
    | cons b bs => cases hsm; exact (minBucketLoop_spec b bs).2
  · obtain ⟨s1, s2, s3, s4, s5⟩ := hsize b hb
    obtain ⟨g1, g3⟩ := generatedF hops s1
    refine ⟨s2, g1, g3 N hN, s5, fun hne => ⟨by rw [← s2]; exact s4 hne, ?_⟩⟩
    obtain ⟨i, hi⟩ := List.mem_iff_getElem?.mp hb
    have hilt := lt_of_getElem? hi
    rw [hlen] at hilt
    have e2 := rank_unrank hilt
    have e1 := unrank_inBox (bs := info.metrics.map (·.gridSize))
      (fun b hb hz => by rw [List.prod_eq_zero (hz ▸ hb)] at hilt; omega) i
    obtain ⟨k1, k2⟩ := herr (unrank (info.metrics.map (·.gridSize)) i) b e1 (by rw [e2]; exact hi) hne
    refine ⟨by rw [k1, metricDimsE_eq, List.length_map], fun k d v hd' hv => ?_⟩
    have hd'' : (metricDimsE (m := m) A dec cv info.metrics)[k]? =
        some ⟨d.gridSize, metricFunctionE A dec cv d.metric, d.bound⟩ := by
      rw [metricDimsE_eq, List.getElem?_map, hd']
      rfl
    have hdm := List.mem_of_getElem? hd'
    have hk := lt_of_getElem? hd'
    have hlen' : (unrank (info.metrics.map (·.gridSize)) i).length = info.metrics.length := by
      rw [unrank_length, List.length_map]
    obtain ⟨⟨c2, c3, j1, j2⟩, -, j4⟩ := k2 k _ _ v hd'' (List.getElem?_eq_getElem (by rw [hlen']; exact hk)) hv
    obtain ⟨v', e', c4, w1, w2, w3, w4, w5, w6, w7⟩ :=
      metricE_value hr he hd hc g1 hN (g3 N hN) hN' hn (hmet d hdm).2.2 j1
    change metricFunctionE A dec cv d.metric f b.function c2 = _ at j2
    rw [w1] at j2
    cases j2
    have hb0 : 0 < d.bound := lt_of_lt_of_le (by norm_num) (hmet d hdm).2.1
    refine ⟨w3, j4, e', w5, fun hms => ⟨(w6 hms).1, below_bound_slack hN' (by omega) hb0 ?_ (w6 hms).1 j4⟩, w7⟩
    cases d.metric <;> simp only [tableSlack] <;> norm_num

/-- The helper returns with all metrics but the mean squared error, whatever the iteration budget from the number given
on, when the input can be loaded, the grid sizes and bounds are positive and not extreme, and the inputs are in range
for the metrics. -/
theorem C128_helper_returns (hr : Nearest A.rnd) (he : A.eps = 1 / 10 ^ 12) (hd : Dec100 dec)
    (hc : DecToDouble A.rnd cv) (asserts : Bool) (files : String → List AigEvent × Bool) (rs : Nat → Nat)
    (info : MinimizationInfo) (c : CTab) (hs : c.Sep A.eps) (f : List (BDD m)) (N : Nat)
    (hload : loadInput asserts files info.input = .ok f)
    (hN : Fits N f) (hN' : N ≤ 1000) (hn : f.length ≤ 39) (hne : info.metrics ≠ [])
    (hprod : (info.metrics.map (·.gridSize)).prod < 2 ^ 64)
    (hmet : ∀ d ∈ info.metrics, 0 < d.gridSize ∧ d.gridSize ≤ 2 ^ 53 ∧ 1 / 2 ^ 60 ≤ d.bound ∧
      d.metric ≠ .meanSquared ∧
      MetricRange m N f.length d.metric ∧ d.gridSize * metricCap f.length d.metric / d.bound ≤ 2 ^ 62)
    (hrand : info.operatorMode = .random →
      info.numOperatorFunctions ≠ none ∧ info.operators ≠ [] ∧ f ≠ []) :
    ∀ fuel, (info.metrics.map (·.gridSize)).prod * nodeCount f + 1 ≤ fuel →
      ∃ (r : MinimizationResult m) (c' : CTab),
        bucketMinimizeHelperE A dec cv asserts fuel files rs info c = .ok (r, c') := by
  intro fuel hfuel
  obtain ⟨ops, hops⟩ : ∃ ops : List (OpFun m), operatorFunctionsF A.rnd f info rs = .ok ops := by
    cases hmode : info.operatorMode with
    | singleBdd => exact ⟨_, by unfold operatorFunctionsF; rw [hmode]⟩
    | multiBdd => exact ⟨_, by unfold operatorFunctionsF; rw [hmode]⟩
    | random =>
      obtain ⟨h1, h2, h3⟩ := hrand hmode
      obtain ⟨n, hn⟩ := Option.ne_none_iff_exists'.mp h1
      have h4 : 0 < terminalLevel [f] := terminalLevel_single_pos h3
      obtain ⟨l, h5, -⟩ := C124_random A.rnd f info.operators rs n 0 h2 h4
      exact ⟨l, by unfold operatorFunctionsF; rw [hmode]; dsimp only; rw [hn]; exact h5⟩
  have hreach : ∀ g, Reach ops f g → g.length = f.length ∧ Fits N g := fun g hg =>
    let ⟨a, b⟩ := generatedF hops hg; ⟨a, b N hN⟩
  have hmem : ∀ d ∈ metricDimsE (m := m) A dec cv info.metrics, ∃ e ∈ info.metrics,
      (⟨e.gridSize, metricFunctionE A dec cv e.metric, e.bound⟩ : MetricDimE m) = d := fun d hd => by
    rw [metricDimsE_eq] at hd
    exact List.mem_map.mp hd
  obtain ⟨bs, c', hbs, -⟩ := C128_returns (rnd := A.rnd) (I := fun c => c.Sep A.eps) f
    (metricDimsE A dec cv info.metrics) ops info.populateAllBuckets
    (by rw [metricDimsE_eq]; simpa using hne)
    (fun d hd => by obtain ⟨e, he, rfl⟩ := hmem d hd; exact (hmet e he).1)
    (by rwa [metricDimsE_grid])
    (fun g hg op hop => operatorFunctionsF_total hops op hop g (hreach g hg).1)
    (fun g hg d hd' => by
      obtain ⟨e, hem, rfl⟩ := hmem d hd'
      obtain ⟨h1, h2, h3, h4, h5, h6⟩ := hmet e hem
      have hb0 : 0 < e.bound := lt_of_lt_of_le (by norm_num) h3
      refine ⟨hb0.ne', fun c1 hc1 => ?_⟩
      obtain ⟨q, e', c2, q1, q2, q3, q4, q6, q5, q7⟩ :=
        metricE_value hr he hd hc (hreach g hg).1 hN (hreach g hg).2 hN' hn h5 hc1
      refine ⟨q, c2, q1, q2, ?_⟩
      have hg0 : (0 : ℚ) ≤ e.gridSize := Nat.cast_nonneg _
      refine coordinateF_le hr h2 q3 q4 h3 ?_
      rw [div_le_iff₀ hb0] at h6 ⊢
      calc (e.gridSize : ℚ) * q ≤ e.gridSize * (2 * metricCap f.length e.metric) :=
            mul_le_mul_of_nonneg_left (q5 h4).2 hg0
        _ = 2 * (e.gridSize * metricCap f.length e.metric) := by ring
        _ ≤ 2 * (2 ^ 62 * e.bound) := mul_le_mul_of_nonneg_left h6 (by norm_num)
        _ = 2 ^ 63 * e.bound := by ring
        _ ≤ 2 ^ 63 * (1 + 1 / 2 ^ 40) * e.bound := mul_le_mul_of_nonneg_right (by norm_num) hb0.le)
    c hs fuel (by rw [metricDimsE_grid]; exact hfuel)
  have hpos : bs ≠ [] := by
    have h1 := (bucketGreedyMinimizeE_inv (I := fun _ => True) (by rwa [metricDimsE_grid])
      (fun _ _ _ _ _ _ _ _ _ => trivial) trivial hbs).1.len
    rintro rfl
    rw [List.length_nil, metricDimsE_grid] at h1
    obtain ⟨e, he, h0⟩ := List.mem_map.mp (List.prod_eq_zero_iff.mp h1.symm)
    have := (hmet e he).1
    omega
  obtain ⟨b, cs, rfl⟩ := List.exists_cons_of_ne_nil hpos
  refine ⟨⟨nodeCount f, minBucketLoop b cs, b :: cs⟩, c', ?_⟩
  unfold bucketMinimizeHelperE
  simp only [hload, hops, hbs, minBucket, bind, Except.bind]

/-- Without relative errors and worst-case bit flips the helper makes no constants and is the one of C124. -/
theorem C128_same (asserts : Bool) (fuel : Nat) (files : String → List AigEvent × Bool) (rs : Nat → Nat)
    (info : MinimizationInfo) (c : CTab) (hmet : ∀ d ∈ info.metrics, d.metric ∉ [ErrorMetric.worstCaseRelative,
      .averageCaseRelative, .averageCaseRelativeAdd, .worstCaseBitFlip]) :
    bucketMinimizeHelperE (m := m) A dec cv asserts fuel files rs info c = (do
      let r ← bucketMinimizeHelperF A.rnd dec cv asserts fuel files rs info
      .ok (r, c)) := by
  have hdims : metricDimsE (m := m) A dec cv info.metrics = (metricDimsF A.rnd dec cv info.metrics).map liftDim := by
    rw [metricDimsE_eq, metricDimsF_eq, List.map_map]
    refine List.map_congr_left fun d hd => ?_
    simp only [Function.comp, liftDim, MetricDimE.mk.injEq, true_and, and_true]
    funext f g c
    exact C128_metric_same d.metric (hmet d hd) f g c
  unfold bucketMinimizeHelperE bucketMinimizeHelperF
  cases loadInput (m := m) asserts files info.input with
  | error e => rfl
  | ok f =>
    simp only [bind, Except.bind]
    cases operatorFunctionsF A.rnd f info rs with
    | error e => rfl
    | ok ops =>
      simp only [hdims, bucketGreedyMinimizeE_lift]
      cases bucketGreedyMinimizeF A.rnd fuel f (metricDimsF A.rnd dec cv info.metrics) ops info.populateAllBuckets with
      | error e => rfl
      | ok bs =>
        simp only [Except.map]
        cases minBucket bs <;> rfl

/-! ## Examples -/

/-- An adder with relative errors and bit flips. -/
def relativeInfo : MinimizationInfo :=
  { input := "adder8",
    metrics := [⟨4, .worstCaseRelative, 1 / 2⟩, ⟨2, .averageCaseRelative, 7⟩, ⟨2, .worstCaseBitFlip, 3⟩,
      ⟨2, .averageCaseRelativeAdd, 1⟩],
    operators := [.round, .subsetLight], operatorMode := .random, numOperatorFunctions := some 10 }

/-- The hypotheses of `C128_helper_returns` and `C128_result_partial` are met in a new manager. -/
example : ∃ (A : AddEnv) (dec cv : ℚ → ℚ) (f : List (BDD .id)), loadAdder 8 = .ok f ∧
    ∀ fuel, 32 * nodeCount f + 1 ≤ fuel → ∃ (r : MinimizationResult .id) (c' : CTab),
      bucketMinimizeHelperE A dec cv false fuel exampleFile (fun k => 3 * k) relativeInfo ⟨[1, 0], 0⟩ = .ok (r, c') ∧
      c'.Sep A.eps ∧ r.originalSize = nodeCount f ∧ r.smallestFunction ∈ r.allBuckets := by
  obtain ⟨rnd, cv, dec, hr, hc, hd⟩ := exists_conversion
  refine ⟨⟨rnd, 1 / 10 ^ 12, fun _ => 0⟩, dec, cv, ?_⟩
  obtain ⟨f, h1, h2, h3, -⟩ := C76_load_adder (m := .id) false exampleFile "adder8" 8 (by simp)
  have hmet : ∀ d ∈ relativeInfo.metrics, 0 < d.gridSize ∧ d.gridSize ≤ 2 ^ 53 ∧ 1 / 2 ^ 60 ≤ d.bound ∧
      d.metric ≠ .meanSquared ∧
      MetricRange .id 16 f.length d.metric ∧ d.gridSize * metricCap f.length d.metric / d.bound ≤ 2 ^ 62 := by
    intro d hd'
    simp only [relativeInfo, List.mem_cons, List.not_mem_nil, or_false] at hd'
    rcases hd' with rfl | rfl | rfl | rfl <;>
      (refine ⟨by norm_num, by norm_num, by norm_num, by simp, ?_, ?_⟩
       · first
           | exact (show f.length < 2 ^ 32 by omega)
           | simp [MetricRange, Mgr.Mono, Mgr.id]
       · simp only [metricCap, h2]
         norm_num)
  refine ⟨f, h1, fun fuel hf => ?_⟩
  have hprod : (relativeInfo.metrics.map (·.gridSize)).prod = 32 := by simp [relativeInfo]
  obtain ⟨r, c', hr'⟩ := C128_helper_returns (A := ⟨rnd, 1 / 10 ^ 12, fun _ => 0⟩) hr rfl hd hc false exampleFile
    (fun k => 3 * k) relativeInfo ⟨[1, 0], 0⟩ C116_new_manager f 16 h1 h3 (by norm_num)
    (by omega) (by simp [relativeInfo]) (by rw [hprod]; norm_num) hmet
    (fun _ => ⟨by simp [relativeInfo], by simp [relativeInfo], by rintro rfl; simp at h2⟩) fuel (by rw [hprod]; exact hf)
  obtain ⟨r1, r2, r3, -⟩ := C128_result_partial (A := ⟨rnd, 1 / 10 ^ 12, fun _ => 0⟩) hr rfl hd hc false fuel
    exampleFile (fun k => 3 * k) relativeInfo r ⟨[1, 0], 0⟩ c' C116_new_manager f 16 h1 h3 (by norm_num) (by omega)
    (by rw [hprod]; norm_num)
    (fun d hd' => ⟨(hmet d hd').2.1, (hmet d hd').2.2.1, (hmet d hd').2.2.2.2.1⟩) hr'
  exact ⟨r, c', hr', r1, r2, r3⟩

/-- The metrics of `floatInfo` meet the hypothesis of `C128_same`. -/
example (c : CTab) : bucketMinimizeHelperE (m := m) A dec cv false 100 exampleFile (fun k => 3 * k) floatInfo c = (do
    let r ← bucketMinimizeHelperF A.rnd dec cv false 100 exampleFile (fun k => 3 * k) floatInfo
    .ok (r, c)) := C128_same false 100 exampleFile _ floatInfo c (by simp [floatInfo])

end Verif

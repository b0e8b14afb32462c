import Verif.Props.FloatExperiments

/-! # C124 the minimisation helper with any operators and metrics on `double`s -/

namespace Verif

variable {m : Mgr} {rnd dec cv : ℚ → ℚ}

/-! ## The operators -/

/-- However the counts are rounded, an operator returns, reads no new variables, and the operators whose names say so
stay below or above the function. -/
theorem C124_apply_operator (rnd : ℚ → ℚ) (b : BDD m) (op : Operator) (j k : Nat) :
    ∃ r, applyOperatorF rnd b op j k = .ok r ∧ (∀ N, Fits N [b] → Fits N [r]) ∧
      (op = .positiveCofactor → ∀ x, r.eval x = b.eval (Function.update x j true)) ∧
      (op = .negativeCofactor → ∀ x, r.eval x = b.eval (Function.update x j false)) ∧
      (op = .subsetLight ∨ op = .subsetHeavy → ∀ x, r.eval x = true → b.eval x = true) ∧
      (op = .supersetLight ∨ op = .supersetHeavy → ∀ x, b.eval x = true → r.eval x = true) := by
  obtain ⟨r, h⟩ := applyOperatorF_total rnd b op j k
  refine ⟨r, h, fun N hN c hc v hv => ?_, ?_, ?_, ?_, ?_⟩
  · rw [List.mem_singleton] at hc
    subst hc
    exact hN b (by simp) v (applyOperatorF_support h v hv)
  · rintro rfl x
    cases h
    exact cofactor_eval b j true x
  · rintro rfl x
    cases h
    exact cofactor_eval b j false x
  · obtain ⟨h1, -⟩ := C88_subset rnd b j k
    rintro (rfl | rfl)
    · obtain ⟨r', e, h2⟩ := h1 false
      rw [show applyOperatorF rnd b .subsetLight j k = roundAnyF rnd b j k false true from rfl, e] at h
      cases h
      exact h2
    · obtain ⟨r', e, h2⟩ := h1 true
      rw [show applyOperatorF rnd b .subsetHeavy j k = roundAnyF rnd b j k true true from rfl, e] at h
      cases h
      exact h2
  · obtain ⟨h1, -⟩ := C88_superset rnd b j k
    rintro (rfl | rfl)
    · obtain ⟨r', e, h2⟩ := h1 false
      rw [show applyOperatorF rnd b .supersetLight j k = roundAnyF rnd b j k false false from rfl, e] at h
      cases h
      exact h2
    · obtain ⟨r', e, h2⟩ := h1 true
      rw [show applyOperatorF rnd b .supersetHeavy j k = roundAnyF rnd b j k true false from rfl, e] at h
      cases h
      exact h2

/-- Up to 53 variables the operators compute what they compute with exact counts (C61). -/
theorem C124_apply_operator_exact (hr : Nearest rnd) (b : BDD m) (hb : Fits 53 [b]) (op : Operator) (j k : Nat) :
    applyOperatorF rnd b op j k = applyOperator b op j k :=
  applyOperatorF_exact hr hb op j k

/-- Bit by bit, level by level and operator by operator, each entry changes one bit. -/
theorem C124_single (rnd : ℚ → ℚ) (f : List (BDD m)) (ops : List Operator) :
    (generateSingleBddOperatorsF rnd f ops).length = f.length * terminalLevel [f] * ops.length ∧
    ∀ i j o op, i < f.length → j < terminalLevel [f] → ops[o]? = some op →
      ∃ F, (generateSingleBddOperatorsF rnd f ops)[(i * terminalLevel [f] + j) * ops.length + o]? = some F ∧
        ∀ g b, g[i]? = some b → ∃ g' b', applyOperatorF rnd b op j j = .ok b' ∧ F g = .ok g' ∧
          g'.length = g.length ∧ g'[i]? = some b' ∧ ∀ k, k ≠ i → g'[k]? = g[k]? := by
  have hin : ∀ i, ((List.range (terminalLevel [f])).flatMap fun j =>
      ops.map fun op => (applyOperatorAtF rnd i j op : OpFun m)).length = terminalLevel [f] * ops.length :=
    fun i => length_flatMap_range _ _ _ (fun j => by simp)
  constructor
  · unfold generateSingleBddOperatorsF
    rw [length_flatMap_range _ _ _ hin, mul_assoc]
  · intro i j o op hi hj ho
    have ho' := lt_of_getElem? ho
    refine ⟨applyOperatorAtF rnd i j op, ?_, fun g b hb => ?_⟩
    · unfold generateSingleBddOperatorsF
      rw [show (i * terminalLevel [f] + j) * ops.length + o =
        i * (terminalLevel [f] * ops.length) + (j * ops.length + o) by ring]
      rw [flatMap_range_getElem? _ _ _ hin hi (by
        calc j * ops.length + o < j * ops.length + ops.length := by omega
          _ = (j + 1) * ops.length := by ring
          _ ≤ terminalLevel [f] * ops.length := Nat.mul_le_mul_right _ hj)]
      rw [flatMap_range_getElem? _ _ _ (fun j => by simp) hj ho', List.getElem?_map, ho]
      rfl
    · obtain ⟨b', h1, h2⟩ := applyOperatorAtF_spec rnd j op hb
      exact ⟨g.set i b', b', h1, h2, by simp, List.getElem?_set_self (lt_of_getElem? hb),
        fun k hk => List.getElem?_set_ne (fun e => hk e.symm)⟩

/-- Level by level and operator by operator, each entry changes all bits. -/
theorem C124_multi (rnd : ℚ → ℚ) (f : List (BDD m)) (ops : List Operator) :
    (generateMultiBddOperatorsF rnd f ops).length = terminalLevel [f] * ops.length ∧
    ∀ j o op, j < terminalLevel [f] → ops[o]? = some op →
      ∃ F, (generateMultiBddOperatorsF rnd f ops)[j * ops.length + o]? = some F ∧
        ∀ g, ∃ g', F g = .ok g' ∧ List.Forall₂ (fun b b' => applyOperatorF rnd b op j j = .ok b') g g' := by
  constructor
  · unfold generateMultiBddOperatorsF
    exact length_flatMap_range _ _ _ (fun j => by rw [List.length_map])
  · intro j o op hj ho
    refine ⟨applyOperatorAllF rnd op j j, ?_, fun g => applyOperatorAllF_spec rnd op j j g⟩
    unfold generateMultiBddOperatorsF
    rw [flatMap_range_getElem? _ _ _ (fun j => by simp) hj (lt_of_getElem? ho), List.getElem?_map, ho]
    rfl

/-- The operators and levels drawn are those of the sequence of random numbers. -/
theorem C124_random (rnd : ℚ → ℚ) (f : List (BDD m)) (ops : List Operator) (rs : Nat → Nat) (n k : Nat)
    (hops : ops ≠ []) (hf : 0 < terminalLevel [f]) :
    ∃ l, generateRandomOperatorsF rnd f ops rs n k = .ok l ∧ l.length = n ∧
      ∀ i < n, ∃ F, l[i]? = some F ∧ ∃ op, ops[rs (k + 2 * i) % ops.length]? = some op ∧ ∀ g, ∃ g', F g = .ok g' ∧
        List.Forall₂ (fun b b' => applyOperatorF rnd b op (rs (k + 2 * i + 1) % terminalLevel [f])
          (rs (k + 2 * i + 1) % terminalLevel [f]) = .ok b') g g' := by
  have hl : ops.length ≠ 0 := fun h => hops (List.length_eq_zero_iff.mp h)
  induction n generalizing k with
  | zero => exact ⟨[], rfl, rfl, by simp⟩
  | succ n ih =>
    obtain ⟨l, h1, h2, h3⟩ := ih (k + 2)
    have hlt : rs k % ops.length < ops.length := Nat.mod_lt _ (Nat.pos_of_ne_zero hl)
    refine ⟨applyOperatorAllF rnd ops[rs k % ops.length] (rs (k + 1) % terminalLevel [f])
      (rs (k + 1) % terminalLevel [f]) :: l, ?_, by simp [h2], fun i hi => ?_⟩
    · unfold generateRandomOperatorsF
      rw [if_neg hl, vget_ok_iff.mpr (List.getElem?_eq_getElem hlt)]
      show (if terminalLevel [f] = 0 then _ else _) = _
      rw [if_neg (by omega), h1]
      rfl
    · cases i with
      | zero =>
        exact ⟨_, rfl, _, List.getElem?_eq_getElem hlt, fun g => applyOperatorAllF_spec rnd _ _ _ g⟩
      | succ i =>
        obtain ⟨F, g1, g2⟩ := h3 i (by omega)
        refine ⟨F, by simpa using g1, ?_⟩
        rw [show k + 2 * (i + 1) = k + 2 + 2 * i by ring]
        exact g2

/-- A disjunction of conjunctions loses its light child below the first variable, the exclusive disjunction is rounded
to a constant. -/
example (hr : Nearest rnd) : ((do
      let a ← applyOperatorF rnd exampleFunction[0] .subsetLight 0 0
      let b ← applyOperatorF rnd exampleFunction[1] .round 0 0
      .ok (a, b) : Except Fault (BDD .id × BDD .id)).toOption) =
      some ((BDD.var 0).and ((BDD.var 1).or ((BDD.var 2).and (.var 3))), BDD.zero) := by
  have h : ∀ b ∈ exampleFunction, Fits 53 [b] := by decide +kernel
  rw [C124_apply_operator_exact hr _ (h _ (by simp)), C124_apply_operator_exact hr _ (h _ (by simp))]
  decide +kernel

/-! ## The metrics -/

/-- The metrics of the search that are rounded, or exact as numbers of bits are. -/
def roundedMetrics : List ErrorMetric :=
  [.worstCase, .worstCasePercent, .averageCase, .errorRate, .averageBitFlip, .worstCaseBitFlip]

theorem roundedMetrics_ne {met : ErrorMetric} (h : met ∈ roundedMetrics) : met ≠ .meanSquared := by
  rintro rfl
  simp [roundedMetrics] at h

/-- Each of these metrics is off by a few units in the last place of a `double` per variable and bit. -/
theorem C124_metric (hr : Nearest rnd) (hd : Dec100 dec) (hc : DecToDouble rnd cv) (N : Nat) (f g : List (BDD m))
    (hl : f.length = g.length) (hf : Fits N f) (hg : Fits N g) (met : ErrorMetric) (hmet : met ∈ roundedMetrics)
    (hN : N ≤ 1000) (hn : f.length ≤ 1000) (hrange : MetricRange m N f.length met) :
    ∃ q e, metricFunctionF rnd dec cv met f g = .ok q ∧ IsMetric N f g met e ∧ 0 ≤ q ∧
      |q - e| ≤ (N + f.length + 2) / 2 ^ 52 * e := by
  have hne := roundedMetrics_ne hmet
  have up : ∀ {q e : ℚ} {c : ℚ}, 0 ≤ e → |q - e| ≤ c / 2 ^ 52 * e → c ≤ N + f.length + 2 →
      |q - e| ≤ (N + f.length + 2) / 2 ^ 52 * e := fun he h h' =>
    h.trans (mul_le_mul_of_nonneg_right (div_le_div_of_nonneg_right h' (by norm_num)) he)
  have hNq : (0 : ℚ) ≤ N := Nat.cast_nonneg N
  have hnq : (0 : ℚ) ≤ f.length := Nat.cast_nonneg _
  simp only [roundedMetrics, List.mem_cons, List.not_mem_nil, or_false] at hmet
  rcases hmet with rfl | rfl | rfl | rfl | rfl | rfl
  · obtain ⟨e, he, hm⟩ := C75_metric_function_partial N f g .worstCase hl hf hg hrange hne
    obtain ⟨h0, h1⟩ := isMetric_range hl hne hm
    simp only [metricFunction] at he
    obtain ⟨w, hw, he⟩ := bind_ok he
    cases he
    have h2 : ((w : Nat) : ℚ) ≤ 2 ^ 255 := h1.trans (pow_le_pow_right₀ (by norm_num) hrange)
    refine ⟨rnd w, w, by simp only [metricFunctionF, hw, bind, Except.bind], hm,
      hr.nonneg h0 (h2.trans (pow_le_big (by norm_num))), ?_⟩
    by_cases hz : w = 0
    · subst hz
      rw [hr.small 0 (by norm_num)]
      simp
    · have h3 : (1 : ℚ) ≤ w := by exact_mod_cast Nat.pos_of_ne_zero hz
      have h4 := hr.rel (q := (w : ℚ)) (le_trans (by
          rw [div_le_one (pow_pos (by norm_num) _)]
          exact one_le_pow₀ (by norm_num)) h3)
        (h2.trans (pow_le_pow_right₀ (by norm_num) (by norm_num)))
      refine up (c := 1) h0 (h4.trans ?_) (by linarith only [hNq, hnq])
      rw [mul_comm]
      exact mul_le_mul_of_nonneg_right (by norm_num) h0
  · obtain ⟨q, e, h1, h2, h3, -, h4⟩ := C110_metric_percent (dec := dec) (cv := cv) hr N f g hl hrange
    exact ⟨q, e, h1, h2, h3, up (isMetric_range hl hne h2).1 h4 (by linarith only [hNq, hnq])⟩
  · exact C110_metric_near hr hd hc N f g hl hf hg _ (by simp) hN hn hrange
  · exact C110_metric_near hr hd hc N f g hl hf hg _ (by simp) hN hn hrange
  · exact C110_metric_near hr hd hc N f g hl hf hg _ (by simp) hN hn hrange
  · obtain ⟨e, he, hm⟩ := C75_metric_function_partial N f g .worstCaseBitFlip hl hf hg hrange hne
    have h0 := (isMetric_range hl hne hm).1
    refine ⟨e, e, he, hm, h0, ?_⟩
    rw [sub_self, abs_zero]
    exact mul_nonneg (div_nonneg (by linarith only [hNq, hnq]) (by norm_num)) h0

theorem metricCap_le {N n : Nat} {met : ErrorMetric} (hmet : met ∈ roundedMetrics) (hn : n ≤ 1000)
    (hrange : MetricRange m N n met) : metricCap n met ≤ 2 ^ 255 := by
  have h1 : (1 : ℚ) ≤ 2 ^ 255 := one_le_pow₀ (by norm_num)
  have h2 : (n : ℚ) ≤ 2 ^ 255 := by
    have : (n : ℚ) ≤ 1000 := by exact_mod_cast hn
    exact this.trans (by norm_num)
  have h3 : ∀ k, k ≤ 255 → (2 : ℚ) ^ k ≤ 2 ^ 255 := fun k hk => pow_le_pow_right₀ (by norm_num) hk
  simp only [roundedMetrics, List.mem_cons, List.not_mem_nil, or_false] at hmet
  rcases hmet with rfl | rfl | rfl | rfl | rfl | rfl
  · exact h3 n hrange
  · exact h1
  · exact h3 n (by have : n + 1 + N ≤ 256 := hrange; omega)
  · exact h1
  · exact h2
  · exact h2

/-- The values handed to the search are not far above those of the exact metrics. -/
theorem metricF_le (hr : Nearest rnd) (hd : Dec100 dec) (hc : DecToDouble rnd cv) {N : Nat} {f g : List (BDD m)}
    (hl : f.length = g.length) (hf : Fits N f) (hg : Fits N g) {met : ErrorMetric} (hmet : met ∈ roundedMetrics)
    (hN : N ≤ 1000) (hn : f.length ≤ 1000) (hrange : MetricRange m N f.length met) :
    ∃ q, metricFunctionF rnd dec cv met f g = .ok q ∧ 0 ≤ q ∧ q ≤ metricCap f.length met * (1 + 1 / 2 ^ 40) := by
  obtain ⟨q, e, h1, h2, h3, h4⟩ := C124_metric hr hd hc N f g hl hf hg met hmet hN hn hrange
  obtain ⟨h5, h6⟩ := isMetric_range hl (roundedMetrics_ne hmet) h2
  refine ⟨q, h1, h3, ?_⟩
  have h7 := (abs_le.mp h4).2
  have h8 : ((N : ℚ) + f.length + 2) / 2 ^ 52 ≤ 1 / 2 ^ 40 := by
    have a : (N : ℚ) ≤ 1000 := by exact_mod_cast hN
    have b : (f.length : ℚ) ≤ 1000 := by exact_mod_cast hn
    rw [div_le_iff₀ (by norm_num)]
    linarith only [a, b]
  have h9 := mul_le_mul_of_nonneg_right h8 h5
  calc q ≤ e + 1 / 2 ^ 40 * e := by linarith only [h7, h9]
    _ = e * (1 + 1 / 2 ^ 40) := by ring
    _ ≤ metricCap f.length met * (1 + 1 / 2 ^ 40) := mul_le_mul_of_nonneg_right h6 (by norm_num)

/-! ## The helper -/

theorem below_bound {N n : Nat} {B v e : ℚ} (hN : N ≤ 1000) (hn : n ≤ 1000) (hB : 0 < B)
    (h1 : |v - e| ≤ (N + n + 2) / 2 ^ 52 * e) (h2 : v < B * (1 + 1 / 2 ^ 51)) :
    e < B * (1 + (N + n + 4) / 2 ^ 51) := by
  have a : (N : ℚ) ≤ 1000 := by exact_mod_cast hN
  have b : (n : ℚ) ≤ 1000 := by exact_mod_cast hn
  have a0 : (0 : ℚ) ≤ N := Nat.cast_nonneg N
  have b0 : (0 : ℚ) ≤ n := Nat.cast_nonneg n
  obtain ⟨t, ht⟩ : ∃ t : ℚ, t = ((N : ℚ) + n + 2) / 2 ^ 52 := ⟨_, rfl⟩
  have t0 : 0 ≤ t := by rw [ht]; exact div_nonneg (by linarith only [a0, b0]) (by norm_num)
  have t1 : t ≤ 1 / 2 ^ 40 := by
    rw [ht, div_le_iff₀ (by norm_num)]
    linarith only [a, b]
  have e1 : ((N : ℚ) + n + 4) / 2 ^ 51 = 2 * t + 1 / 2 ^ 50 := by rw [ht]; ring
  rw [← ht] at h1
  rw [e1]
  have h3 := (abs_le.mp h1).1
  have h4 : (1 - t) * e < B * (1 + 1 / 2 ^ 51) := by linarith only [h3, h2]
  have h5 : 0 < 1 - t := by linarith only [t1]
  have h6 : 1 + 1 / 2 ^ 51 ≤ (1 - t) * (1 + (2 * t + 1 / 2 ^ 50)) := by
    have : t * t ≤ t * (1 / 2 ^ 40) := mul_le_mul_of_nonneg_left t1 t0
    nlinarith only [this, t0, t1]
  have h7 : (1 - t) * e < (1 - t) * (B * (1 + (2 * t + 1 / 2 ^ 50))) := by
    refine h4.trans_le ?_
    calc B * (1 + 1 / 2 ^ 51) ≤ B * ((1 - t) * (1 + (2 * t + 1 / 2 ^ 50))) := mul_le_mul_of_nonneg_left h6 hB.le
      _ = _ := by ring
  exact lt_of_mul_lt_mul_left h7 h5.le

theorem below_cell {B : ℚ} {i g : Nat} (hB : 0 ≤ B) (hi : i < g) : B * (i + 1) / g ≤ B := by
  have hg : (0 : ℚ) < g := by exact_mod_cast (by omega : 0 < g)
  rw [div_le_iff₀ hg]
  exact mul_le_mul_of_nonneg_left (by exact_mod_cast hi) hB

theorem metricCap_pow {n : Nat} (met : ErrorMetric) : metricCap n met ≤ 2 ^ n := by
  have h1 : (1 : ℚ) ≤ 2 ^ n := one_le_pow₀ (by norm_num)
  have h2 : (n : ℚ) ≤ 2 ^ n := by exact_mod_cast Nat.lt_two_pow_self.le
  cases met <;> first | exact h1 | exact h2 | exact le_refl _

/-- Sums of whole numbers over all inputs. -/
theorem isMetric_dyadic {N : Nat} {f b : List (BDD m)} {met : ErrorMetric} {v : ℚ}
    (hmet : met ∈ [ErrorMetric.worstCase, .averageCase, .errorRate, .averageBitFlip, .worstCaseBitFlip])
    (h : IsMetric N f b met v) : ∃ j : Nat, v = j / 2 ^ N := by
  have whole : ∀ k : Nat, v = k → ∃ j : Nat, v = j / 2 ^ N := fun k hk => ⟨k * 2 ^ N, by
    rw [hk, Nat.cast_mul, Nat.cast_pow, Nat.cast_ofNat, mul_div_assoc, div_self (pow_ne_zero _ two_ne_zero), mul_one]⟩
  simp only [List.mem_cons, List.not_mem_nil, or_false] at hmet
  rcases hmet with rfl | rfl | rfl | rfl | rfl
  · obtain ⟨⟨x, hx⟩, -⟩ := h
    refine whole ((uAt f x : Int) - uAt b x).natAbs ?_
    rw [← hx, absErrAt, Int.abs_eq_natAbs, Int.cast_natCast]
  · obtain ⟨j, hj⟩ := mean_absErrAt N f b
    exact ⟨j, Eq.trans h hj⟩
  · obtain ⟨j, -, hj⟩ := mean_errorRate N f b
    exact ⟨j, Eq.trans h hj⟩
  · obtain ⟨j, hj⟩ := mean_nat N (fun x => hamming (bitsAt f x) (bitsAt b x))
    exact ⟨j, Eq.trans h hj⟩
  · obtain ⟨⟨x, hx⟩, -⟩ := h
    exact whole _ hx.symm

/-- A coordinate that is in range before rounding is in range after it. -/
theorem coordinateF_le (hr : Nearest rnd) {g : Nat} {e b : ℚ} (hg : g ≤ 2 ^ 53) (he : 0 ≤ e) (he' : e ≤ 2 ^ 900)
    (hb : 1 / 2 ^ 60 ≤ b) (h : g * e / b ≤ 2 ^ 63 * (1 + 1 / 2 ^ 40)) :
    0 ≤ coordinateF rnd g e b ∧ coordinateF rnd g e b < 2 ^ 64 := by
  have hb0 : (0 : ℚ) < b := lt_of_lt_of_le (by norm_num) hb
  have h0 : (0 : ℚ) ≤ g * e := mul_nonneg (Nat.cast_nonneg g) he
  have hge : (g : ℚ) * e ≤ 2 ^ 1023 := by
    have hgq : (g : ℚ) ≤ 2 ^ 53 := by exact_mod_cast hg
    calc (g : ℚ) * e ≤ 2 ^ 53 * 2 ^ 900 := mul_le_mul hgq he' he (pow_nonneg (by norm_num) _)
      _ = 2 ^ 953 := by rw [← pow_add]
      _ ≤ 2 ^ 1023 := pow_le_big (by norm_num)
  have r0 := hr.nonneg h0 hge
  have r1 : rnd (g * e) ≤ 2 * (g * e) := by
    have := hr.near (g * e) 0 ((abs_of_nonneg h0).trans_le hge) isDouble_zero
    rw [zero_sub, abs_neg, abs_of_nonneg h0] at this
    linarith only [(abs_le.mp this).2]
  have q0 : 0 ≤ rnd (g * e) / b := div_nonneg r0 hb0.le
  have q1 : rnd (g * e) / b ≤ 2 ^ 65 := by
    rw [div_le_iff₀ hb0] at h ⊢
    calc rnd (g * e) ≤ 2 * (g * e) := r1
      _ ≤ 2 * (2 ^ 63 * (1 + 1 / 2 ^ 40) * b) := mul_le_mul_of_nonneg_left h (by norm_num)
      _ ≤ 2 ^ 65 * b := by
        rw [← mul_assoc]
        exact mul_le_mul_of_nonneg_right (by norm_num) hb0.le
  have q2 : rnd (g * e) / b ≤ 2 ^ 1023 := q1.trans (pow_le_big (by norm_num))
  have c0 : 0 ≤ coordinateF rnd g e b := by
    unfold coordinateF
    rw [hr.small g hg]
    exact hr.nonneg q0 q2
  refine ⟨c0, ?_⟩
  by_cases hn : b / 2 ≤ g * e
  · obtain ⟨r2, -⟩ := coordinateF_rel hr hg ((abs_of_nonneg he).trans_le he') hb hn
    calc coordinateF rnd g e b ≤ g * e / b * (1 + 1 / 2 ^ 51) := r2
      _ ≤ 2 ^ 63 * (1 + 1 / 2 ^ 40) * (1 + 1 / 2 ^ 51) := mul_le_mul_of_nonneg_right h (by norm_num)
      _ < 2 ^ 64 := by norm_num
  · rw [not_le] at hn
    have q3 : rnd (g * e) / b ≤ 1 := by
      rw [div_le_one hb0]
      linarith only [r1, hn]
    refine lt_of_le_of_lt (b := (1 : ℚ)) ?_ (by norm_num)
    unfold coordinateF
    rw [hr.small g hg]
    exact hr.le_one q0 q3

/-- The result of the helper, with the coordinates of the stored values. -/
theorem helperF_values {asserts : Bool} {fuel : Nat} {files : String → List AigEvent × Bool} {rs : Nat → Nat}
    {info : MinimizationInfo} {r : MinimizationResult m} {f : List (BDD m)}
    (hload : loadInput asserts files info.input = .ok f) (hprod : (info.metrics.map (·.gridSize)).prod < 2 ^ 64)
    (hbound : ∀ d ∈ info.metrics, 0 < d.bound)
    (h : bucketMinimizeHelperF rnd dec cv asserts fuel files rs info = .ok r) :
    r.originalSize = nodeCount f ∧
      r.smallestFunction ∈ r.allBuckets ∧ (∀ b ∈ r.allBuckets, r.smallestFunction.bddSize ≤ b.bddSize) ∧
      r.allBuckets.length = (info.metrics.map (·.gridSize)).prod ∧
      ∀ b ∈ r.allBuckets, b.bddSize = nodeCount b.function ∧ b.function.length = f.length ∧
        (∀ N, Fits N f → Fits N b.function) ∧ (b.isEmpty = true → b.function = f) ∧
        (b.isEmpty = false → nodeCount b.function < nodeCount f ∧
          b.metricValues.length = info.metrics.length ∧
          ∀ (k : Nat) (d : SimpleMetricDim) (v : ℚ), info.metrics[k]? = some d →
            b.metricValues[k]? = some v → metricFunctionF rnd dec cv d.metric f b.function = .ok v ∧
            ∃ i < d.gridSize, coordinateF rnd d.gridSize v d.bound < i + 1) := by
  unfold bucketMinimizeHelperF at h
  obtain ⟨f', hload', h⟩ := bind_ok h
  rw [hload] at hload'
  cases hload'
  obtain ⟨ops, hops, h⟩ := bind_ok h
  obtain ⟨bs, hbs, h⟩ := bind_ok h
  obtain ⟨sm, hsm, h⟩ := bind_ok h
  cases h
  have hprod' : ((metricDimsF (m := m) rnd dec cv info.metrics).map (·.gridSize)).prod < 2 ^ 64 := by
    rwa [metricDimsF_grid]
  obtain ⟨hlen, herr⟩ := follows_values hprod' (fun d hd => by
    rw [metricDimsF_eq] at hd
    obtain ⟨e, he, rfl⟩ := List.mem_map.mp hd
    exact hbound e he) hbs
  have hsize := C109_sizes fuel f _ ops _ bs hprod' hbs
  rw [metricDimsF_grid] at hlen
  refine ⟨rfl, ?_, ?_, hlen, fun b hb => ?_⟩
  · cases bs with
    | nil => cases hsm
    | cons b bs => cases hsm; exact (minBucketLoop_spec b bs).1
  · cases bs with
    | nil => cases hsm
    | cons b bs => cases hsm; exact (minBucketLoop_spec b bs).2
  · obtain ⟨s1, s2, s3, s4, s5⟩ := hsize b hb
    obtain ⟨g1, g3⟩ := generatedF hops s1
    refine ⟨s2, g1, g3, s5, fun hne => ⟨by rw [← s2]; exact s4 hne, ?_⟩⟩
    obtain ⟨i, hi⟩ := List.mem_iff_getElem?.mp hb
    have hilt := lt_of_getElem? hi
    rw [hlen, ← metricDimsF_grid (m := m) (rnd := rnd) (dec := dec) (cv := cv)] at hilt
    have e2 := rank_unrank hilt
    have e1 := unrank_inBox (bs := (metricDimsF (m := m) rnd dec cv info.metrics).map (·.gridSize))
      (fun b hb hz => by rw [List.prod_eq_zero (hz ▸ hb)] at hilt; omega) i
    obtain ⟨k1, -, k2⟩ := herr (unrank ((metricDimsF (m := m) rnd dec cv info.metrics).map (·.gridSize)) i) b e1
      (by rw [e2]; exact hi) hne
    refine ⟨by rw [k1, metricDimsF_eq, List.length_map], fun k d v hd' hv => ?_⟩
    have hd'' : (metricDimsF (m := m) rnd dec cv info.metrics)[k]? =
        some ⟨d.gridSize, metricFunctionF rnd dec cv d.metric, d.bound⟩ := by
      rw [metricDimsF_eq, List.getElem?_map, hd']
      rfl
    have hk := lt_of_getElem? hd''
    have hlen' : (unrank ((metricDimsF (m := m) rnd dec cv info.metrics).map (·.gridSize)) i).length =
        (metricDimsF (m := m) rnd dec cv info.metrics).length := by
      rw [unrank_length, List.length_map]
    obtain ⟨-, -, j1, j2, j3⟩ := k2 k _ _ v hd'' (List.getElem?_eq_getElem (by rw [hlen']; exact hk)) hv
    exact ⟨j2, _, j1, j3⟩

/-- What the helper returns on `double`s: as in `C76_result_partial`, with errors that are the true ones up to rounding
and above the bounds by rounding only.  (Missing for the full claim: the mean squared error may be as small as a third
of the true one, as with exact numbers; relative errors are left out.) -/
theorem C124_result_partial (hr : Nearest rnd) (hd : Dec100 dec) (hc : DecToDouble rnd cv) (asserts : Bool) (fuel : Nat)
    (files : String → List AigEvent × Bool) (rs : Nat → Nat) (info : MinimizationInfo) (r : MinimizationResult m)
    (f : List (BDD m)) (N : Nat) (hload : loadInput asserts files info.input = .ok f) (hN : Fits N f)
    (hN' : N ≤ 1000) (hn : f.length ≤ 1000)
    (hprod : (info.metrics.map (·.gridSize)).prod < 2 ^ 64)
    (hmet : ∀ d ∈ info.metrics, d.gridSize ≤ 2 ^ 53 ∧ 1 / 2 ^ 60 ≤ d.bound ∧
      (d.metric ∈ roundedMetrics ∨ d.metric = .meanSquared) ∧ MetricRange m N f.length d.metric)
    (h : bucketMinimizeHelperF rnd dec cv asserts fuel files rs info = .ok r) :
    r.originalSize = nodeCount f ∧
      r.smallestFunction ∈ r.allBuckets ∧ (∀ b ∈ r.allBuckets, r.smallestFunction.bddSize ≤ b.bddSize) ∧
      r.allBuckets.length = (info.metrics.map (·.gridSize)).prod ∧
      ∀ b ∈ r.allBuckets, b.bddSize = nodeCount b.function ∧ b.function.length = f.length ∧ Fits N b.function ∧
        (b.isEmpty = true → b.function = f) ∧
        (b.isEmpty = false → nodeCount b.function < nodeCount f ∧
          b.metricValues.length = info.metrics.length ∧
          ∀ (k : Nat) (d : SimpleMetricDim) (v : ℚ), info.metrics[k]? = some d →
            b.metricValues[k]? = some v → 0 ≤ v ∧ v < d.bound * (1 + 1 / 2 ^ 51) ∧
            ∃ e, IsMetric N f b.function d.metric e ∧
              (d.metric ≠ .meanSquared → |v - e| ≤ (N + f.length + 2) / 2 ^ 52 * e ∧
                e < d.bound * (1 + (N + f.length + 4) / 2 ^ 51)) ∧
              (d.metric = .meanSquared → v ≤ (1 + (N + 2) / 2 ^ 52) * e ∧ (1 - (N + 2) / 2 ^ 52) * e ≤ 3 * v)) := by
  have hval : ∀ e ∈ info.metrics, ∀ g : List (BDD m), g.length = f.length → Fits N g → ∃ v e',
      metricFunctionF rnd dec cv e.metric f g = .ok v ∧ 0 ≤ v ∧ v ≤ 2 ^ 900 ∧ IsMetric N f g e.metric e' ∧ 0 ≤ e' ∧
      (e.metric ≠ .meanSquared → |v - e'| ≤ (N + f.length + 2) / 2 ^ 52 * e') ∧
      (e.metric = .meanSquared → v ≤ (1 + (N + 2) / 2 ^ 52) * e' ∧ (1 - (N + 2) / 2 ^ 52) * e' ≤ 3 * v) := by
    intro e he g hg1 hg2
    obtain ⟨-, -, h3 | h3, h4⟩ := hmet e he
    · obtain ⟨q, e', q1, q2, q3, q4⟩ := C124_metric hr hd hc N f g hg1.symm hN hg2 e.metric h3 hN' hn h4
      obtain ⟨q', p1, -, p3⟩ := metricF_le hr hd hc hg1.symm hN hg2 h3 hN' hn h4
      rw [q1] at p1
      cases p1
      refine ⟨q, e', q1, q3, p3.trans ?_, q2, (isMetric_range hg1.symm (roundedMetrics_ne h3) q2).1, fun _ => q4,
        fun e => absurd e (roundedMetrics_ne h3)⟩
      calc metricCap f.length e.metric * (1 + 1 / 2 ^ 40) ≤ 2 ^ 255 * 2 := by
            have := metricCap_le h3 hn h4
            exact mul_le_mul this (by norm_num) (by norm_num) (pow_nonneg (by norm_num) _)
        _ = 2 ^ 256 := by rw [← pow_succ]
        _ ≤ 2 ^ 900 := pow_le_pow_right₀ (by norm_num) (by norm_num)
    · rw [h3] at h4 ⊢
      obtain ⟨q, e', q1, q2, q3, q4, q5, -⟩ := C110_metric_mean_squared_partial hr hd hc N f g hg1.symm hN hg2 h4
      have h4' : 2 * (f.length + 1) + N ≤ 256 := h4
      have q2' : e' = mean N (fun x => absErrAt f g x ^ 2) := q2
      have he0 : 0 ≤ e' := q2' ▸ mean_nonneg N (fun x => sq_nonneg _)
      have hcap : e' ≤ 2 ^ (2 * f.length) := by
        have := mean_mono N (g := fun x => absErrAt f g x ^ 2) (h := fun _ => 2 ^ (2 * f.length)) (fun x => by
          obtain ⟨a1, a2⟩ := absErrAt_range hg1.symm x
          have a3 : absErrAt f g x ≤ 2 ^ f.length := le_trans a2 (by linarith)
          rw [mul_comm, pow_mul]
          exact pow_le_pow_left₀ a1 a3 2)
        rwa [mean_const, ← q2'] at this
      refine ⟨q, e', q1, q3, q4.trans ?_, q2, he0, fun h => absurd rfl h, fun _ => ⟨q4, q5⟩⟩
      have a : (N : ℚ) ≤ 1000 := by exact_mod_cast hN'
      have b : 1 + ((N : ℚ) + 2) / 2 ^ 52 ≤ 2 := by
        have : ((N : ℚ) + 2) / 2 ^ 52 ≤ 1 := by
          rw [div_le_one (by norm_num)]
          linarith only [a]
        linarith only [this]
      calc (1 + ((N : ℚ) + 2) / 2 ^ 52) * e' ≤ 2 * 2 ^ (2 * f.length) := mul_le_mul b hcap he0 (by norm_num)
        _ = 2 ^ (2 * f.length + 1) := by rw [pow_succ, mul_comm]
        _ ≤ 2 ^ 900 := pow_le_pow_right₀ (by norm_num) (by omega)
  obtain ⟨r1, r2, r3, r4, r5⟩ := helperF_values hload hprod (fun d hd => lt_of_lt_of_le (by norm_num) (hmet d hd).2.1) h
  refine ⟨r1, r2, r3, r4, fun b hb => ?_⟩
  obtain ⟨b1, b2, b3, b4, b5⟩ := r5 b hb
  refine ⟨b1, b2, b3 N hN, b4, fun hne => ?_⟩
  obtain ⟨c1, c2, c3⟩ := b5 hne
  refine ⟨c1, c2, fun k d v hd' hv => ?_⟩
  obtain ⟨j1, i, j2, j3⟩ := c3 k d v hd' hv
  have hdm := List.mem_of_getElem? hd'
  obtain ⟨v', e', v1, v2, v3, v4, v5, v6, v7⟩ := hval d hdm b.function b2 (b3 N hN)
  rw [v1] at j1
  cases j1
  have hb0 : 0 < d.bound := lt_of_lt_of_le (by norm_num) (hmet d hdm).2.1
  have j4 : v < d.bound * (1 + 1 / 2 ^ 51) := by
    refine (coordinateF_lt hr (by omega) (hmet d hdm).1 ((abs_of_nonneg v2).trans_le v3) (hmet d hdm).2.1 j3).trans_le
      (mul_le_mul_of_nonneg_right (below_cell hb0.le j2) (by norm_num))
  exact ⟨v2, j4, e', v4, fun hms => ⟨v6 hms, below_bound hN' hn hb0 (v6 hms) j4⟩, v7⟩

/-- For small functions the stored errors are the true ones and strictly below the bounds, as with exact numbers. -/
theorem C124_result_small (hr : Nearest rnd) (hd : Dec100 dec) (hc : DecToDouble rnd cv) (asserts : Bool) (fuel : Nat)
    (files : String → List AigEvent × Bool) (rs : Nat → Nat) (info : MinimizationInfo) (r : MinimizationResult m)
    (f : List (BDD m)) (N s : Nat) (hload : loadInput asserts files info.input = .ok f) (hN : Fits N f) (hne : f ≠ [])
    (hs : N + f.length + s ≤ 53) (hprod : (info.metrics.map (·.gridSize)).prod < 2 ^ 64)
    (hmet : ∀ d ∈ info.metrics, d.gridSize ≤ 2 ^ s ∧ 1 / 2 ^ 60 ≤ d.bound ∧
      d.metric ∈ [ErrorMetric.worstCase, .averageCase, .errorRate, .averageBitFlip, .worstCaseBitFlip])
    (h : bucketMinimizeHelperF rnd dec cv asserts fuel files rs info = .ok r) :
    ∀ b ∈ r.allBuckets, b.isEmpty = false →
      ∀ (k : Nat) (d : SimpleMetricDim) (v : ℚ), info.metrics[k]? = some d →
        b.metricValues[k]? = some v → v < d.bound ∧ IsMetric N f b.function d.metric v := by
  obtain ⟨-, -, -, -, r5⟩ := helperF_values hload hprod (fun d hd => lt_of_lt_of_le (by norm_num) (hmet d hd).2.1) h
  intro b hb hemp k d v hd' hv
  obtain ⟨-, b2, b3, -, b5⟩ := r5 b hb
  obtain ⟨j1, i, j2, j3⟩ := (b5 hemp).2.2 k d v hd' hv
  obtain ⟨d1, d2, d3⟩ := hmet d (List.mem_of_getElem? hd')
  have hlen1 : 1 ≤ f.length := List.length_pos_iff.mpr hne
  rw [C110_metric_exact hr hd hc N f b.function b2.symm hN (b3 N hN) hne (by omega) d.metric d3] at j1
  have hms : d.metric ≠ .meanSquared := by
    intro e
    rw [e] at d3
    simp at d3
  have hrange : MetricRange m N f.length d.metric := by
    simp only [List.mem_cons, List.not_mem_nil, or_false] at d3
    rcases d3 with e | e | e | e | e <;> rw [e] <;> simp only [MetricRange] <;> omega
  obtain ⟨e, he, hm⟩ := C75_metric_function_partial N f b.function d.metric b2.symm hN (b3 N hN) hrange hms
  rw [he] at j1
  cases j1
  refine ⟨?_, hm⟩
  obtain ⟨m1, m2⟩ := isMetric_range b2.symm hms hm
  have m3 : v ≤ 2 ^ f.length := m2.trans (metricCap_pow d.metric)
  obtain ⟨j, hj⟩ := isMetric_dyadic (b := b.function) d3 hm
  have hg : d.gridSize ≤ 2 ^ 53 := d1.trans (Nat.pow_le_pow_right (by norm_num) (by omega))
  have hdb : IsDouble (d.gridSize * v) := by
    rw [hj, ← mul_div_assoc, ← Nat.cast_mul]
    refine isDouble_nat_div _ N ?_ (by omega)
    have h1 : j ≤ 2 ^ f.length * 2 ^ N := by
      rw [hj, div_le_iff₀ (by positivity)] at m3
      exact_mod_cast m3
    calc d.gridSize * j ≤ 2 ^ s * (2 ^ f.length * 2 ^ N) := Nat.mul_le_mul d1 h1
      _ = 2 ^ (s + (f.length + N)) := by rw [← pow_add, ← pow_add]
      _ ≤ 2 ^ 53 := Nat.pow_le_pow_right (by norm_num) (by omega)
  have hb0 : 0 < d.bound := lt_of_lt_of_le (by norm_num) d2
  exact (coordinateF_lt_exact hr (by omega) hg d2 ((abs_of_nonneg m1).trans_le
    (m3.trans (pow_le_pow_right₀ (by norm_num) (by omega)))) hdb (by omega) j3).trans_le (below_cell hb0.le j2)

/-- The helper returns, whatever the iteration budget from the number given on, when the input can be loaded, the grid
sizes and bounds are positive and not extreme, and the inputs are in range for the metrics. -/
theorem C124_returns (hr : Nearest rnd) (hd : Dec100 dec) (hc : DecToDouble rnd cv) (asserts : Bool)
    (files : String → List AigEvent × Bool) (rs : Nat → Nat)
    (info : MinimizationInfo) (f : List (BDD m)) (N : Nat) (hload : loadInput asserts files info.input = .ok f)
    (hN : Fits N f) (hN' : N ≤ 1000) (hn : f.length ≤ 1000) (hne : info.metrics ≠ [])
    (hprod : (info.metrics.map (·.gridSize)).prod < 2 ^ 64)
    (hmet : ∀ d ∈ info.metrics, 0 < d.gridSize ∧ d.gridSize ≤ 2 ^ 53 ∧ 1 / 2 ^ 60 ≤ d.bound ∧
      d.metric ∈ roundedMetrics ∧
      MetricRange m N f.length d.metric ∧ d.gridSize * metricCap f.length d.metric / d.bound ≤ 2 ^ 63)
    (hrand : info.operatorMode = .random →
      info.numOperatorFunctions ≠ none ∧ info.operators ≠ [] ∧ f ≠ []) :
    ∀ fuel, (info.metrics.map (·.gridSize)).prod * nodeCount f + 1 ≤ fuel →
      ∃ r : MinimizationResult m, bucketMinimizeHelperF rnd dec cv asserts fuel files rs info = .ok r := by
  intro fuel hfuel
  obtain ⟨ops, hops⟩ : ∃ ops : List (OpFun m), operatorFunctionsF rnd f info rs = .ok ops := by
    cases hmode : info.operatorMode with
    | singleBdd => exact ⟨_, by unfold operatorFunctionsF; rw [hmode]⟩
    | multiBdd => exact ⟨_, by unfold operatorFunctionsF; rw [hmode]⟩
    | random =>
      obtain ⟨h1, h2, h3⟩ := hrand hmode
      obtain ⟨n, hn⟩ := Option.ne_none_iff_exists'.mp h1
      have h4 : 0 < terminalLevel [f] := terminalLevel_single_pos h3
      obtain ⟨l, h5, -⟩ := C124_random rnd f info.operators rs n 0 h2 h4
      exact ⟨l, by unfold operatorFunctionsF; rw [hmode]; dsimp only; rw [hn]; exact h5⟩
  have hreach : ∀ g, Reach ops f g → g.length = f.length ∧ Fits N g := fun g hg =>
    let ⟨a, b⟩ := generatedF hops hg; ⟨a, b N hN⟩
  have hmem : ∀ d ∈ metricDimsF (m := m) rnd dec cv info.metrics, ∃ e ∈ info.metrics,
      (⟨e.gridSize, metricFunctionF rnd dec cv e.metric, e.bound⟩ : MetricDim m) = d := fun d hd => by
    rw [metricDimsF_eq] at hd
    exact List.mem_map.mp hd
  obtain ⟨bs, hbs⟩ := C109_returns (rnd := rnd) f (metricDimsF rnd dec cv info.metrics) ops info.populateAllBuckets
    (by rw [metricDimsF_eq]; simpa using hne)
    (fun d hd => by obtain ⟨e, he, rfl⟩ := hmem d hd; exact (hmet e he).1)
    (by rwa [metricDimsF_grid])
    (fun g hg op hop => operatorFunctionsF_total hops op hop g (hreach g hg).1)
    (fun g hg d hd' => by
      obtain ⟨e, he, rfl⟩ := hmem d hd'
      obtain ⟨h1, h2, h3, h4, h5, h6⟩ := hmet e he
      obtain ⟨q, q1, q2, q3⟩ := metricF_le hr hd hc (hreach g hg).1.symm hN (hreach g hg).2 h4 hN' hn h5
      have hb0 : 0 < e.bound := lt_of_lt_of_le (by norm_num) h3
      have hcap := metricCap_le h4 hn h5
      refine ⟨hb0.ne', q, q1, ?_⟩
      have hg0 : (0 : ℚ) ≤ e.gridSize := Nat.cast_nonneg _
      have q4 : q ≤ 2 ^ 256 := q3.trans (by
        rw [show (2 : ℚ) ^ 256 = 2 ^ 255 * 2 by rw [← pow_succ]]
        exact mul_le_mul hcap (by norm_num) (by norm_num) (pow_nonneg (by norm_num) _))
      refine coordinateF_le hr h2 q2 (q4.trans (pow_le_pow_right₀ (by norm_num) (by norm_num))) h3 ?_
      rw [div_le_iff₀ hb0] at h6 ⊢
      calc (e.gridSize : ℚ) * q ≤ e.gridSize * (metricCap f.length e.metric * (1 + 1 / 2 ^ 40)) :=
            mul_le_mul_of_nonneg_left q3 hg0
        _ = e.gridSize * metricCap f.length e.metric * (1 + 1 / 2 ^ 40) := by ring
        _ ≤ 2 ^ 63 * e.bound * (1 + 1 / 2 ^ 40) := mul_le_mul_of_nonneg_right h6 (by norm_num)
        _ = 2 ^ 63 * (1 + 1 / 2 ^ 40) * e.bound := by ring) fuel (by rw [metricDimsF_grid]; exact hfuel)
  have hpos : bs ≠ [] := by
    have h1 := (follows_values (by rwa [metricDimsF_grid]) (fun d hd => by
        obtain ⟨e, he, rfl⟩ := hmem d hd
        exact lt_of_lt_of_le (by norm_num) (hmet e he).2.2.1) hbs).1
    rintro rfl
    rw [List.length_nil, metricDimsF_grid] at h1
    obtain ⟨e, he, h0⟩ := List.mem_map.mp (List.prod_eq_zero_iff.mp h1.symm)
    have := (hmet e he).1
    omega
  obtain ⟨b, cs, rfl⟩ := List.exists_cons_of_ne_nil hpos
  refine ⟨⟨nodeCount f, minBucketLoop b cs, b :: cs⟩, ?_⟩
  unfold bucketMinimizeHelperF
  simp only [hload, hops, hbs, minBucket, bind, Except.bind]

/-- In mode `RANDOM` the number of operators has to be set. -/
theorem C124_unset (rnd dec cv : ℚ → ℚ) (asserts : Bool) (fuel : Nat) (files : String → List AigEvent × Bool)
    (rs : Nat → Nat)
    (info : MinimizationInfo) (f : List (BDD m)) (hload : loadInput asserts files info.input = .ok f)
    (hmode : info.operatorMode = .random) (hn : info.numOperatorFunctions = none) :
    bucketMinimizeHelperF (m := m) rnd dec cv asserts fuel files rs info = .error .ub := by
  unfold bucketMinimizeHelperF operatorFunctionsF
  rw [hload, hmode, hn]
  rfl

/-- An adder with random operators: the hypotheses of `C124_returns` and `C124_result_partial` are met for four
metrics. -/
def floatInfo : MinimizationInfo :=
  { input := "adder8",
    metrics := [⟨4, .worstCasePercent, 1 / 2⟩, ⟨2, .averageCase, 7⟩, ⟨2, .averageBitFlip, 3⟩, ⟨2, .errorRate, 1⟩],
    operators := [.round, .subsetLight], operatorMode := .random, numOperatorFunctions := some 10 }

example (hr : Nearest rnd) (hd : Dec100 dec) (hc : DecToDouble rnd cv) :
    ∃ f : List (BDD m), loadAdder 8 = .ok f ∧ ∀ fuel, 32 * nodeCount f + 1 ≤ fuel →
      ∃ r : MinimizationResult m, bucketMinimizeHelperF rnd dec cv false fuel exampleFile (fun k => 3 * k) floatInfo = .ok r ∧
        r.originalSize = nodeCount f ∧ r.smallestFunction ∈ r.allBuckets := by
  obtain ⟨f, h1, h2, h3, -⟩ := C76_load_adder (m := m) false exampleFile "adder8" 8 (by simp)
  have hmet : ∀ d ∈ floatInfo.metrics, 0 < d.gridSize ∧ d.gridSize ≤ 2 ^ 53 ∧ 1 / 2 ^ 60 ≤ d.bound ∧
      d.metric ∈ roundedMetrics ∧
      MetricRange m 16 f.length d.metric ∧ d.gridSize * metricCap f.length d.metric / d.bound ≤ 2 ^ 63 := by
    intro d hd'
    simp only [floatInfo, List.mem_cons, List.not_mem_nil, or_false] at hd'
    rcases hd' with rfl | rfl | rfl | rfl <;>
      (refine ⟨by norm_num, by norm_num, by norm_num, by simp [roundedMetrics], ?_, ?_⟩
       · simp [MetricRange, h2]
       · simp only [metricCap, h2]
         norm_num)
  refine ⟨f, h1, fun fuel hf => ?_⟩
  have hprod : (floatInfo.metrics.map (·.gridSize)).prod = 32 := by simp [floatInfo]
  obtain ⟨r, hr'⟩ := C124_returns hr hd hc false exampleFile (fun k => 3 * k) floatInfo f 16 h1 h3 (by norm_num)
    (by omega) (by simp [floatInfo]) (by rw [hprod]; norm_num) hmet
    (fun _ => ⟨by simp [floatInfo], by simp [floatInfo], by rintro rfl; simp at h2⟩) fuel (by rw [hprod]; exact hf)
  obtain ⟨r1, r2, -⟩ := C124_result_partial hr hd hc false fuel exampleFile (fun k => 3 * k) floatInfo r f 16 h1 h3
    (by norm_num) (by omega) (by rw [hprod]; norm_num)
    (fun d hd' => ⟨(hmet d hd').2.1, (hmet d hd').2.2.1, Or.inl (hmet d hd').2.2.2.1, (hmet d hd').2.2.2.2.1⟩) hr'
  exact ⟨r, hr', r1, r2⟩

/-- The file of two outputs meets the hypotheses of `C124_result_small`. -/
example (hr : Nearest rnd) (hd : Dec100 dec) (hc : DecToDouble rnd cv) (fuel : Nat) (r : MinimizationResult Mgr.id)
    (h : bucketMinimizeHelperF rnd dec cv true fuel exampleFile (fun _ => 0) exampleInfo = .ok r) :
    ∃ f : List (BDD .id), loadInput true exampleFile exampleInfo.input = .ok f ∧ ∀ b ∈ r.allBuckets, b.isEmpty = false →
      ∀ v, b.metricValues[0]? = some v → v < 1 / 2 ∧ v = mean 3 (fun x => if bitsAt f x = bitsAt b.function x then 0 else 1) := by
  have hf : ((loadInput (m := .id) true exampleFile exampleInfo.input).toOption.map fun f =>
      (f.length, decide (∀ b ∈ f, ∀ v ∈ b.supportIndices, v < 3))) = some (2, true) := by decide +kernel
  cases hl : loadInput (m := .id) true exampleFile exampleInfo.input with
  | error e => rw [hl] at hf; simp [Except.toOption] at hf
  | ok f =>
    rw [hl] at hf
    simp only [Except.toOption, Option.map_some, Option.some.injEq, Prod.mk.injEq, decide_eq_true_eq] at hf
    refine ⟨f, rfl, fun b hb hne v hv => ?_⟩
    have := C124_result_small hr hd hc true fuel exampleFile (fun _ => 0) exampleInfo r f 3 1 hl hf.2
      (by rintro rfl; simp at hf) (by omega) (by simp [exampleInfo])
      (by simp [exampleInfo]; norm_num) h b hb hne 0 _ v rfl hv
    exact this

end Verif

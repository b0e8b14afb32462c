import Verif.Proofs.ProbSampling
import Verif.Props.Nodes

/-!
# C90, C91: what the random procedures do on average

`rand()` is taken to be perfect: every sequence of numbers from `0` to `RAND_MAX` is equally likely.
`meanDraws N` is the mean over all sequences of `N` draws, so that
`meanDraws N (fun rs => hitProp A (run rs))` is the probability that a run has a result in `A`.
-/

namespace Verif

open scoped BigOperators
open Finset

variable {m : Mgr}

/-! ## C90 `random_satisfying_input` -/

/-- Whatever set `A` of inputs one looks at, the probability that `random_satisfying_input` draws from
it differs by at most `N / 2^31` from the share of `A` in the satisfying inputs, and in relative terms
it is short by at most that much. -/
theorem C90_random_satisfying_input_near_uniform_partial (hm : m.Mono) (f : BDD m) (N : Nat)
    (hs : ∃ x, f.eval x = true) (hN : Fits N [f]) (A : Asg → Bool) :
    let p := meanDraws N (fun rs => hitProp (fun l => A (asgOf l))
      (randomSatisfyingInput f (countMinterms f) N rs))
    let u : ℚ := count N (fun x => f.eval x && A x) / count N f.eval
    (1 - (N : ℚ) / 2 ^ 31) * u ≤ p ∧ |p - u| ≤ (N : ℚ) / 2 ^ 31 := by
  intro p u
  have h := randomSat_event hm f N hs hN A
  have hd : (drawRange : ℚ) = 2 ^ 31 := by norm_num [drawRange]
  rw [hd] at h
  have hu0 : 0 ≤ u := by positivity
  have hu1 : u ≤ 1 := by
    apply div_le_one_of_le₀ _ (by positivity)
    have : count N (fun x => f.eval x && A x) ≤ count N f.eval := by
      apply Finset.card_le_card
      intro a ha
      simp only [Finset.mem_filter, Finset.mem_univ, true_and, Bool.and_eq_true] at ha ⊢
      exact ha.1
    exact_mod_cast this
  have hN0 : (0 : ℚ) ≤ (N : ℚ) / 2 ^ 31 := by positivity
  refine ⟨h.1, abs_le.mpr ⟨?_, ?_⟩⟩
  · have h1 : (1 - (N : ℚ) / 2 ^ 31) * u ≤ p := h.1
    nlinarith
  · have h1 : p ≤ u + (N : ℚ) / 2 ^ 31 * (1 - u) := h.2
    nlinarith

/-- Every single satisfying input is drawn with a probability of at least `(1 - N/2^31) / n`, where
`n` is the number of satisfying inputs. -/
theorem C90_every_solution_is_drawn (hm : m.Mono) (f : BDD m) (N : Nat) (hN : Fits N [f])
    (x : Fin N → Bool) (hx : f.eval (ext x) = true) :
    (1 - (N : ℚ) / 2 ^ 31) / count N f.eval ≤
      meanDraws N (fun rs => hitProp (fun l => decide (l = List.ofFn (fun i => (x i).toNat)))
        (randomSatisfyingInput f (countMinterms f) N rs)) := by
  have h := (C90_random_satisfying_input_near_uniform_partial hm f N ⟨_, hx⟩ hN
    (fun y => decide (∀ i : Fin N, y i = x i))).1
  have hc : count N (fun y => f.eval y && decide (∀ i : Fin N, y i = x i)) = 1 := by
    rw [count, Finset.card_eq_one]
    refine ⟨x, ?_⟩
    ext a
    simp only [Finset.mem_filter, Finset.mem_univ, true_and, Bool.and_eq_true, decide_eq_true_eq,
      Finset.mem_singleton, ext_apply]
    constructor
    · exact fun h => funext h.2
    · rintro rfl
      exact ⟨hx, fun _ => rfl⟩
  rw [hc, Nat.cast_one, mul_one_div] at h
  refine le_trans h (le_of_eq ?_)
  apply congrArg
  funext rs
  obtain ⟨l, hl, hlen, hb⟩ := randomSat_bits hm f N rs
  rw [hl]
  simp only [hitProp, atResult]
  congr 1
  rw [decide_eq_true_eq, decide_eq_true_eq]
  apply propext
  constructor
  · intro hall
    apply List.ext_getElem (by simp [hlen])
    intro i h1 h2
    have h3 := hall ⟨i, by omega⟩
    simp only [asgOf, List.getD_eq_getElem _ _ h1] at h3
    rw [List.getElem_ofFn, ← h3]
    have := hb _ (List.getElem_mem h1)
    by_cases h0 : l[i] = 0
    · simp [h0]
    · have h5 : l[i] = 1 := by omega
      simp [h5]
  · intro he i
    rw [he, asgOf_ofFn, ext_apply]

/-- The result fails to satisfy the function (see C20) with probability at most `N / 2^31`. -/
theorem C90_unsatisfying_result_is_rare (hm : m.Mono) (f : BDD m) (N : Nat)
    (hs : ∃ x, f.eval x = true) (hN : Fits N [f]) :
    meanDraws N (fun rs => hitProp (fun l => !f.eval (asgOf l))
      (randomSatisfyingInput f (countMinterms f) N rs)) ≤ (N : ℚ) / 2 ^ 31 := by
  have h := (abs_le.mp (C90_random_satisfying_input_near_uniform_partial hm f N hs hN (fun x => !f.eval x)).2).2
  have hc : count N (fun x => f.eval x && !f.eval x) = 0 := by
    rw [count, Finset.card_eq_zero]
    ext a
    simp
  rw [hc] at h
  simpa using h

/-- The bound is attained for one variable: `¬x₀` has the only solution 0, and the draw of 0 misses
it.  So the draws are not exactly uniform. -/
theorem C90_exactly_uniform_false : ∃ f : BDD Mgr.id, (∃ x, f.eval x = true) ∧ Fits 1 [f] ∧
    meanDraws 1 (fun rs => hitProp (fun l => !f.eval (asgOf l))
      (randomSatisfyingInput f (countMinterms f) 1 rs)) = 1 / 2 ^ 31 := by
  refine ⟨(BDD.var 0).not, ⟨fun _ => false, by simp⟩, by decide +kernel, ?_⟩
  have hrun : ∀ rs, randomSatisfyingInput (BDD.var 0 : BDD Mgr.id).not (countMinterms (BDD.var 0 : BDD Mgr.id).not) 1 rs
      = .ok (if rs 0 = 0 then [1] else [0]) := by
    intro rs
    have he : (BDD.var 0 : BDD Mgr.id).not.edge = ⟨true, .node 0 .one true .one⟩ := by decide +kernel
    have h1 : NMap.find (countMinterms (BDD.var 0 : BDD Mgr.id).not) ⟨true, .one⟩ = some 0 := by decide +kernel
    have h2 : NMap.find (countMinterms (BDD.var 0 : BDD Mgr.id).not) ⟨false, .one⟩ = some 1 := by decide +kernel
    rw [randomSatisfyingInput, he, randomSatLoop, if_neg (lt_irrefl _), h1]
    simp only [Bool.true_xor, Bool.not_true, h2, zero_add, zero_div]
    have hM : (0 : ℚ) < randMax := by norm_num [randMax]
    by_cases h0 : rs 0 = 0
    · simp [h0, randomSatLoop, bind, Except.bind]
    · have : ¬ (rs 0 : ℚ) / randMax ≤ 0 := by
        rw [not_le]
        exact div_pos (by exact_mod_cast Nat.pos_of_ne_zero h0) hM
      simp [h0, this, randomSatLoop, bind, Except.bind]
  have hval : ∀ a : Fin 1 → Fin drawRange, hitProp (fun l => !(BDD.var 0 : BDD Mgr.id).not.eval (asgOf l))
      (randomSatisfyingInput (BDD.var 0 : BDD Mgr.id).not (countMinterms (BDD.var 0 : BDD Mgr.id).not) 1 (seqOf a))
      = if (fun _ => 0) = a then 1 else 0 := by
    intro a
    rw [hrun]
    have : seqOf a 0 = (a 0).val := by simp [seqOf]
    rw [this]
    have hiff : (a 0).val = 0 ↔ (fun _ => 0) = a := by
      constructor
      · intro h
        funext i
        rw [Subsingleton.elim i 0]
        exact Fin.ext (by rw [h]; rfl)
      · rintro rfl
        rfl
    by_cases h : (a 0).val = 0
    · rw [if_pos h, if_pos (hiff.mp h)]
      simp [hitProp, atResult, asgOf]
    · rw [if_neg h, if_neg (fun h' => h (hiff.mpr h'))]
      simp [hitProp, atResult, asgOf]
  unfold meanDraws
  rw [Finset.expect_congr rfl (fun a _ => hval a), Fintype.expect_eq_sum_div_card, Finset.sum_ite_eq,
    if_pos (Finset.mem_univ _), Fintype.card_fun, Fintype.card_fin, Fintype.card_fin]
  norm_num [drawRange]

/-- Three of the four inputs of `x₀ ∨ x₁` satisfy it; each is drawn with a probability close to `1/3`. -/
example : (∃ x, ((BDD.var 0 : BDD Mgr.id).or (.var 1)).eval x = true) ∧
    Fits 2 [(BDD.var 0 : BDD Mgr.id).or (.var 1)] ∧
    count 2 ((BDD.var 0 : BDD Mgr.id).or (.var 1)).eval = 3 ∧
    ((BDD.var 0 : BDD Mgr.id).or (.var 1)).eval (ext (fun i : Fin 2 => i = 1)) = true :=
  ⟨⟨fun v => v = 0, by simp⟩, by decide +kernel, by decide +kernel, by decide +kernel⟩

/-! ## C91 `error_rate_sampling` -/

/-- On average over all draws the estimate is the error rate, for every number of samples. -/
theorem C91_error_rate_sampling_unbiased (f g : List (BDD m)) (N samples : Nat)
    (hl : f.length = g.length) (hf : Fits N f) (hg : Fits N g) (h1 : 1 ≤ samples)
    (h2 : samples < 2 ^ 31) :
    meanDraws2 samples N (fun rs => atResult id (errorRateSampling f g N samples rs))
      = mean N (fun x => if bitsAt f x = bitsAt g x then 0 else 1) := by
  have hpos : (0 : ℚ) < samples := by exact_mod_cast h1
  unfold meanDraws2
  simp only [sampling_estimate f g N samples hl hf hg h1 h2, atResult, id]
  rw [← Finset.expect_div, Finset.expect_sum_comm, Finset.sum_congr rfl (fun j _ =>
    expect_coord samples j (fun w : Fin N → Fin drawRange =>
      if bitsAt f (ext (fun i => decide ((w i).val % 2 ≠ 0))) = bitsAt g (ext (fun i => decide ((w i).val % 2 ≠ 0)))
      then (0 : ℚ) else 1)), Finset.sum_const, Finset.card_univ, Fintype.card_fin, nsmul_eq_mul,
    mul_div_cancel_left₀ _ hpos.ne',
    expect_parity_vec N (fun w => if bitsAt f (ext w) = bitsAt g (ext w) then (0 : ℚ) else 1), mean_eq_expect]

/-- Its mean squared deviation from the error rate `p` is `p (1 - p) / samples`. -/
theorem C91_error_rate_sampling_variance (f g : List (BDD m)) (N samples : Nat)
    (hl : f.length = g.length) (hf : Fits N f) (hg : Fits N g) (h1 : 1 ≤ samples)
    (h2 : samples < 2 ^ 31) :
    let p := mean N (fun x => if bitsAt f x = bitsAt g x then 0 else 1)
    meanDraws2 samples N (fun rs => atResult (fun q => (q - p) ^ 2) (errorRateSampling f g N samples rs))
      = p * (1 - p) / samples := by
  intro p
  have hpos : (0 : ℚ) < samples := by exact_mod_cast h1
  have hmean : 𝔼 w : Fin N → Fin drawRange, (if bitsAt f (ext (fun i => decide ((w i).val % 2 ≠ 0)))
      = bitsAt g (ext (fun i => decide ((w i).val % 2 ≠ 0))) then (0 : ℚ) else 1) = p := by
    rw [expect_parity_vec N (fun w => if bitsAt f (ext w) = bitsAt g (ext w) then (0 : ℚ) else 1)]
    exact (mean_eq_expect N (fun x => if bitsAt f x = bitsAt g x then (0 : ℚ) else 1)).symm
  unfold meanDraws2
  simp only [sampling_estimate f g N samples hl hf hg h1 h2, atResult]
  set X : (Fin N → Fin drawRange) → ℚ := fun w => if bitsAt f (ext (fun i => decide ((w i).val % 2 ≠ 0)))
      = bitsAt g (ext (fun i => decide ((w i).val % 2 ≠ 0))) then (0 : ℚ) else 1 with hX
  have hmean' : 𝔼 w, X w = p := hmean
  have hsq : ∀ w, X w * X w = X w := by
    intro w
    simp only [hX]
    split <;> norm_num
  have e : ∀ a : Fin samples → Fin N → Fin drawRange, ((∑ j, X (a j)) / samples - p) ^ 2
      = (∑ j, (X (a j) - p)) ^ 2 / samples ^ 2 := by
    intro a
    rw [Finset.sum_sub_distrib, Finset.sum_const, Finset.card_univ, Fintype.card_fin, nsmul_eq_mul,
      ← div_pow, sub_div, mul_div_cancel_left₀ _ hpos.ne']
  rw [Finset.expect_congr rfl (fun a _ => e a), ← Finset.expect_div,
    expect_sq (fun w => X w - p) (by rw [Finset.expect_sub_distrib, hmean', Fintype.expect_const, sub_self])]
  have hv : 𝔼 w, (X w - p) ^ 2 = p * (1 - p) := by
    have e2 : ∀ w, (X w - p) ^ 2 = (1 - 2 * p) * X w + p ^ 2 := by
      intro w
      have := hsq w
      ring_nf
      rw [pow_two (X w), this]
      ring
    rw [Finset.expect_congr rfl (fun w _ => e2 w), Finset.expect_add_distrib, ← Finset.mul_expect, hmean',
      Fintype.expect_const]
    ring
  rw [hv]
  field_simp

/-- An error of `ε` or more has probability at most `1 / (4 · samples · ε²)`, whatever the functions
are. -/
theorem C91_error_rate_sampling_accuracy (f g : List (BDD m)) (N samples : Nat)
    (hl : f.length = g.length) (hf : Fits N f) (hg : Fits N g) (h1 : 1 ≤ samples)
    (h2 : samples < 2 ^ 31) (ε : ℚ) (hε : 0 < ε) :
    meanDraws2 samples N (fun rs => hitProp (fun q =>
      decide (ε ≤ |q - mean N (fun x => if bitsAt f x = bitsAt g x then 0 else 1)|))
      (errorRateSampling f g N samples rs)) ≤ 1 / (4 * samples * ε ^ 2) := by
  have hpos : (0 : ℚ) < samples := by exact_mod_cast h1
  have hv := C91_error_rate_sampling_variance f g N samples hl hf hg h1 h2
  simp only at hv
  set p := mean N (fun x => if bitsAt f x = bitsAt g x then (0 : ℚ) else 1) with hp
  have hle : meanDraws2 samples N (fun rs => hitProp (fun q => decide (ε ≤ |q - p|))
      (errorRateSampling f g N samples rs)) ≤
      meanDraws2 samples N (fun rs => atResult (fun q => (q - p) ^ 2) (errorRateSampling f g N samples rs)) / ε ^ 2 := by
    unfold meanDraws2
    rw [Finset.expect_div]
    apply Finset.expect_le_expect
    intro a _
    simp only [sampling_estimate f g N samples hl hf hg h1 h2, hitProp, atResult]
    split
    · rename_i h
      rw [decide_eq_true_eq] at h
      rw [le_div_iff₀ (by positivity), one_mul, ← sq_abs (_ - p)]
      exact pow_le_pow_left₀ hε.le h 2
    · positivity
  rw [hv] at hle
  refine le_trans hle ?_
  rw [div_div, div_le_div_iff₀ (by positivity) (by positivity)]
  have : p * (1 - p) * 4 ≤ 1 := by nlinarith [sq_nonneg (2 * p - 1)]
  have h4 : (0 : ℚ) ≤ samples * ε ^ 2 := by positivity
  nlinarith

/-- Half of the inputs are wrong here; a million samples miss this by a tenth with probability at most
`1/40000`. -/
example : mean 2 (fun x => if bitsAt [(BDD.var 0 : BDD .id)] x = bitsAt [(BDD.var 1 : BDD .id)] x then 0 else 1) = 1 / 2 ∧
    Fits 2 [(BDD.var 0 : BDD .id)] ∧ Fits 2 [(BDD.var 1 : BDD .id)] ∧
    (1 : ℚ) / (4 * (1000000 : Nat) * (1 / 10) ^ 2) = 1 / 40000 :=
  ⟨by decide +kernel, by decide +kernel, by decide +kernel, by norm_num⟩

end Verif

import Verif.Proofs.ProbEfficient

/-!
# C92, C93: what `error_rate_efficient_sampling` estimates on average, and how far off it is

`rand()` is taken to be perfect, as for C90 and C91.
-/

namespace Verif

open scoped BigOperators
open Finset

variable {m : Mgr}

/-- On average the estimate does not exceed the error rate by more than `N / 2^31` times the sum of
the rates of the single bits. -/
theorem C92_efficient_sampling_mean_upper (hm : m.Mono) (f g : List (BDD m)) (N samples : Nat)
    (acts : List (Nat × ℚ)) (hl : f.length = g.length) (hf : Fits N f) (hg : Fits N g) (h0 : 1 ≤ N)
    (h1 : N ≤ 1024) (hs : samples < 2 ^ 31) (hacts : SortedActs (xorDiff f g) acts)
    (htwo : ∃ i j, i < j ∧ j < f.length ∧ 0 < bitRate N f g i ∧ 0 < bitRate N f g j) :
    meanDraws3 f.length samples N (fun rs => atResult id (errorRateEfficientSampling f g N samples acts rs)) ≤
      mean N (fun x => if bitsAt f x = bitsAt g x then 0 else 1) +
      (N : ℚ) / 2 ^ 31 * ((List.range f.length).map (bitRate N f g)).sum := by
  obtain ⟨R, hR, _, hup, _⟩ := efficient_mean hm f g N samples acts hl hf hg h0 h1 hs hacts htwo
  have hd : (drawRange : ℚ) = 2 ^ 31 := by norm_num [drawRange]
  rw [hd] at hup
  refine le_trans (meanDraws3_mono _ _ _ (fun rs => ?_)) hup
  rw [hR]
  exact min_le_right _ _

/-- If there are enough samples for every bit that is ever wrong, the average estimate is at least the
error rate, less the share `N / 2^31`, divided by the sum of the rates of the single bits if that sum
exceeds 1 (this is what cutting the estimate off at 1 can cost).  The full claim, that the average is
the error rate up to the inaccuracy of the draws for every number of samples, is false
(`C92_efficient_sampling_unbiased_false`). -/
theorem C92_efficient_sampling_mean_lower_partial (hm : m.Mono) (f g : List (BDD m)) (N samples : Nat)
    (acts : List (Nat × ℚ)) (hl : f.length = g.length) (hf : Fits N f) (hg : Fits N g) (h0 : 1 ≤ N)
    (h1 : N ≤ 1024) (hs : samples < 2 ^ 31) (hacts : SortedActs (xorDiff f g) acts)
    (htwo : ∃ i j, i < j ∧ j < f.length ∧ 0 < bitRate N f g i ∧ 0 < bitRate N f g j)
    (hsamp : ∀ i, 0 < bitRate N f g i →
      ((List.range f.length).map (bitRate N f g)).sum ≤ samples * bitRate N f g i) :
    (1 - (N : ℚ) / 2 ^ 31) * mean N (fun x => if bitsAt f x = bitsAt g x then 0 else 1) /
        max 1 ((List.range f.length).map (bitRate N f g)).sum ≤
      meanDraws3 f.length samples N (fun rs => atResult id (errorRateEfficientSampling f g N samples acts rs)) := by
  obtain ⟨R, hR, hrange, _, hlow, _⟩ := efficient_mean hm f g N samples acts hl hf hg h0 h1 hs hacts htwo
  have hd : (drawRange : ℚ) = 2 ^ 31 := by norm_num [drawRange]
  have hlow' := hlow hsamp
  rw [hd] at hlow'
  set S := ((List.range f.length).map (bitRate N f g)).sum
  have hM : (0 : ℚ) < max 1 S := lt_of_lt_of_le one_pos (le_max_left _ _)
  refine le_trans (div_le_div_of_nonneg_right hlow' hM.le) ?_
  rw [div_eq_inv_mul, ← meanDraws3_mul]
  refine meanDraws3_mono _ _ _ (fun rs => ?_)
  rw [hR]
  change (max 1 S)⁻¹ * R rs ≤ min 1 (R rs)
  rw [← div_eq_inv_mul]
  apply le_min
  · exact div_le_one_of_le₀ (le_trans (hrange rs).2 (le_max_right _ _)) hM.le
  · exact div_le_self (hrange rs).1 (le_max_left _ _)

/-- For every number of samples the mean squared deviation of the estimate from the error rate is at
most `S²/(2·samples)` for the spread plus the square of `S·N/2^31 + S·bits/samples` for the draws not
being exact and the bits left out, where `S` is the sum of the rates of the single bits. -/
theorem C93_efficient_sampling_accuracy (hm : m.Mono) (f g : List (BDD m)) (N samples : Nat)
    (acts : List (Nat × ℚ)) (hl : f.length = g.length) (hf : Fits N f) (hg : Fits N g) (h0 : 1 ≤ N)
    (h1 : N ≤ 1024) (hs : samples < 2 ^ 31) (hs1 : 1 ≤ samples) (hacts : SortedActs (xorDiff f g) acts)
    (htwo : ∃ i j, i < j ∧ j < f.length ∧ 0 < bitRate N f g i ∧ 0 < bitRate N f g j) :
    meanDraws3 f.length samples N (fun rs => atResult
        (fun e => (e - mean N (fun x => if bitsAt f x = bitsAt g x then 0 else 1)) ^ 2)
        (errorRateEfficientSampling f g N samples acts rs)) ≤
      ((List.range f.length).map (bitRate N f g)).sum ^ 2 / (2 * samples) +
      (((List.range f.length).map (bitRate N f g)).sum * ((N : ℚ) / 2 ^ 31 + f.length / samples)) ^ 2 := by
  obtain ⟨R, hR, hrange, hup, _, hacc⟩ := efficient_mean hm f g N samples acts hl hf hg h0 h1 hs hacts htwo
  obtain ⟨hlow, hvar⟩ := hacc hs1
  have hd : (drawRange : ℚ) = 2 ^ 31 := by norm_num [drawRange]
  rw [hd] at hup hlow
  set S := ((List.range f.length).map (bitRate N f g)).sum
  set er := mean N (fun x => if bitsAt f x = bitsAt g x then 0 else 1) with her
  set μ := meanDraws3 f.length samples N R
  have hS0 : 0 ≤ S := le_trans (hrange (fun _ _ _ => 0)).1 (hrange (fun _ _ _ => 0)).2
  have her1 : er ≤ 1 := by
    refine le_trans (mean_mono N (h := fun _ => 1) (fun x => ?_)) (mean_const N 1).le
    split <;> norm_num
  have her0 : er ≤ S := (C38_bounds_enclose_error_rate f g N hl).2
  have hsp : (0 : ℚ) < samples := by exact_mod_cast hs1
  have hbias : |μ - er| ≤ S * ((N : ℚ) / 2 ^ 31 + f.length / samples) := by
    have e1 : (0 : ℚ) ≤ (N : ℚ) / 2 ^ 31 := by positivity
    have e2 : 0 ≤ S * ((f.length : ℚ) / samples) := by positivity
    have e3 := mul_le_mul_of_nonneg_left her0 e1
    rw [abs_le, mul_add]
    have e4 : (f.length : ℚ) * S / samples = S * (f.length / samples) := by ring
    rw [e4] at hlow
    constructor <;> nlinarith
  have hsq : (μ - er) ^ 2 ≤ (S * ((N : ℚ) / 2 ^ 31 + f.length / samples)) ^ 2 := by
    rw [← sq_abs (μ - er)]
    exact pow_le_pow_left₀ (abs_nonneg _) hbias 2
  have hstep : ∀ rs, atResult (fun e => (e - er) ^ 2) (errorRateEfficientSampling f g N samples acts rs) ≤
      ((R rs - μ) ^ 2 + (2 * (μ - er)) * (R rs + (-μ))) + (μ - er) ^ 2 := by
    intro rs
    rw [hR]
    have e : ((R rs - μ) ^ 2 + (2 * (μ - er)) * (R rs + (-μ))) + (μ - er) ^ 2 = (R rs - er) ^ 2 := by ring
    rw [e]
    change (min 1 (R rs) - er) ^ 2 ≤ _
    rcases le_total 1 (R rs) with h | h
    · rw [min_eq_left h]
      exact pow_le_pow_left₀ (by linarith) (by linarith) 2
    · rw [min_eq_right h]
  refine le_trans (meanDraws3_mono _ _ _ hstep) ?_
  rw [meanDraws3_add, meanDraws3_add, meanDraws3_mul, meanDraws3_add, meanDraws3_const, meanDraws3_const]
  have : meanDraws3 f.length samples N (fun rs => R rs) = μ := rfl
  rw [this]
  linarith

/-- The same as a probability: how rarely the estimate is off by `η` or more. -/
theorem C93_efficient_sampling_rarely_far_off (hm : m.Mono) (f g : List (BDD m)) (N samples : Nat)
    (acts : List (Nat × ℚ)) (hl : f.length = g.length) (hf : Fits N f) (hg : Fits N g) (h0 : 1 ≤ N)
    (h1 : N ≤ 1024) (hs : samples < 2 ^ 31) (hs1 : 1 ≤ samples) (hacts : SortedActs (xorDiff f g) acts)
    (htwo : ∃ i j, i < j ∧ j < f.length ∧ 0 < bitRate N f g i ∧ 0 < bitRate N f g j)
    (η : ℚ) (hη : 0 < η) :
    meanDraws3 f.length samples N (fun rs => hitProp
        (fun e => decide (η ≤ |e - mean N (fun x => if bitsAt f x = bitsAt g x then 0 else 1)|))
        (errorRateEfficientSampling f g N samples acts rs)) ≤
      (((List.range f.length).map (bitRate N f g)).sum ^ 2 / (2 * samples) +
      (((List.range f.length).map (bitRate N f g)).sum * ((N : ℚ) / 2 ^ 31 + f.length / samples)) ^ 2) / η ^ 2 := by
  have h := C93_efficient_sampling_accuracy hm f g N samples acts hl hf hg h0 h1 hs hs1 hacts htwo
  refine le_trans ?_ (div_le_div_of_nonneg_right h (by positivity))
  rw [div_eq_inv_mul, ← meanDraws3_mul]
  refine meanDraws3_mono _ _ _ (fun rs => ?_)
  unfold hitProp
  cases errorRateEfficientSampling f g N samples acts rs with
  | error e => simp [atResult]
  | ok v =>
    simp only [atResult]
    set er := mean N (fun x => if bitsAt f x = bitsAt g x then 0 else 1)
    by_cases hv : η ≤ |v - er|
    · simp only [hv, decide_true, if_true]
      rw [← div_eq_inv_mul, le_div_iff₀ (by positivity), one_mul, ← sq_abs (v - er)]
      exact pow_le_pow_left₀ hη.le hv 2
    · simp only [hv, decide_false]
      positivity

/-- With too few samples whole bits are skipped: for three independent bits and one sample the
estimate is always `1/2`, whereas the error rate is `7/8`. -/
theorem C92_efficient_sampling_unbiased_false : ∃ (f g : List (BDD Mgr.id)) (acts : List (Nat × ℚ)),
    f.length = g.length ∧ Fits 3 f ∧ Fits 3 g ∧ SortedActs (xorDiff f g) acts ∧
    (∃ i j, i < j ∧ j < f.length ∧ 0 < bitRate 3 f g i ∧ 0 < bitRate 3 f g j) ∧
    mean 3 (fun x => if bitsAt f x = bitsAt g x then 0 else 1) = 7 / 8 ∧
    meanDraws3 3 1 3 (fun rs => atResult id (errorRateEfficientSampling f g 3 1 acts rs)) = 1 / 2 := by
  have hs : SortedActs (xorDiff [(BDD.var 0 : BDD .id), .var 1, .var 2] [.zero, .zero, .zero])
      [(0, 1 / 2), (1, 1 / 2), (2, 1 / 2)] := by
    constructor
    · have : activations (xorDiff [(BDD.var 0 : BDD .id), .var 1, .var 2] [.zero, .zero, .zero])
          = [(0, 1 / 2), (1, 1 / 2), (2, 1 / 2)] := by decide +kernel
      rw [this]
    · norm_num
  refine ⟨[.var 0, .var 1, .var 2], [.zero, .zero, .zero], _, rfl, by decide +kernel, by decide +kernel, hs,
    ⟨0, 1, by decide, by decide, by decide +kernel, by decide +kernel⟩, by decide +kernel, ?_⟩
  have : ∀ rs, errorRateEfficientSampling [(BDD.var 0 : BDD .id), .var 1, .var 2] [.zero, .zero, .zero] 3 1
      [(0, 1 / 2), (1, 1 / 2), (2, 1 / 2)] rs = .ok (1 / 2) := by
    intro rs
    have hfr : ((xorDiff [(BDD.var 0 : BDD .id), .var 1, .var 2] [.zero, .zero, .zero]).map
        (fun d => d.edge.frac)).sum = 3 / 2 := by decide +kernel
    have hfl : ⌊(1 : ℚ) * (1 / 2) / (3 / 2 - 1 / 2)⌋ = 0 := by decide +kernel
    simp only [errorRateEfficientSampling, hfr]
    norm_num [xorDiff, vget, effLoop, bind, Except.bind]
  simp only [this, atResult, id]
  exact meanDraws3_const _ _ _ _

/-- 16 independent bits and a billion samples: the bound is about `3·10⁻⁸`. -/
example : ((8 : ℚ) ^ 2 / (2 * 1000000000) + (8 * ((16 : ℚ) / 2 ^ 31 + 16 / 1000000000)) ^ 2) < 4 / 10 ^ 8 := by
  norm_num

/-- Two independent bits, 10 samples: the hypotheses hold, and the error rate is `3/4`. -/
example : (∀ i < 2, 0 < bitRate 2 [(BDD.var 0 : BDD .id), .var 1] [.zero, .zero] i →
      ((List.range 2).map (bitRate 2 [(BDD.var 0 : BDD .id), .var 1] [.zero, .zero])).sum ≤
        (10 : Nat) * bitRate 2 [(BDD.var 0 : BDD .id), .var 1] [.zero, .zero] i) ∧
    mean 2 (fun x => if bitsAt [(BDD.var 0 : BDD .id), .var 1] x = bitsAt [(.zero : BDD .id), .zero] x
      then 0 else 1) = 3 / 4 ∧
    activations (xorDiff [(BDD.var 0 : BDD .id), .var 1] [.zero, .zero]) = [(0, 1 / 2), (1, 1 / 2)] := by
  decide +kernel

end Verif

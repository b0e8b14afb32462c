import Verif.Proofs.Prob
import Mathlib.Algebra.Order.Ring.Pow

/-!
# Lemmas on how `random_satisfying_input` and the sampling loops distribute their results
-/

namespace Verif

open scoped BigOperators
open Finset

variable {m : Mgr}

theorem mean_eq_expect (N : Nat) (g : Asg → ℚ) : mean N g = 𝔼 a : Fin N → Bool, g (ext a) := by
  rw [Fintype.expect_eq_sum_div_card, mean]
  simp

theorem asgOf_ofFn {N : Nat} (w : Fin N → Bool) : asgOf (List.ofFn fun i => (w i).toNat) = ext w := by
  funext v
  simp only [asgOf, ext, List.getD_eq_getElem?_getD]
  by_cases hv : v < N
  · rw [dif_pos hv, List.getElem?_eq_getElem (by simpa using hv)]
    cases h : w ⟨v, hv⟩ <;> simp [h]
  · rw [dif_neg hv, List.getElem?_eq_none (by simpa using Nat.not_lt.mp hv)]
    simp

theorem extFrom_zero {N : Nat} (w : Fin N → Bool) : extFrom 0 w = ext w := by
  funext v
  simp [extFrom, ext]

theorem trueMean_zero (f : BDD m) (N : Nat) (g : Asg → ℚ) :
    trueMean N 0 f.edge (fun l => g (asgOf l)) = mean N (fun x => if f.eval x then g x else 0) := by
  rw [mean_eq_expect, trueMean]
  refine Finset.expect_congr rfl (fun w _ => ?_)
  rw [extFrom_zero, asgOf_ofFn]
  rfl

theorem walkMean_zero (f : BDD m) (cnt : NMap ℚ) (N : Nat) (g : List Nat → ℚ) :
    walkMean cnt N 0 f.edge g = meanDraws N (fun rs => atResult g (randomSatisfyingInput f cnt N rs)) := rfl

theorem meanDraws_add (k : Nat) (F G : (Nat → Nat) → ℚ) :
    meanDraws k (fun rs => F rs + G rs) = meanDraws k F + meanDraws k G :=
  Finset.expect_add_distrib _ _ _

instance : NeZero drawRange := ⟨by norm_num [drawRange]⟩

theorem meanDraws_one (k : Nat) : meanDraws k (fun _ => 1) = 1 :=
  Fintype.expect_one

theorem draw_pow_ge (N : Nat) : 1 - (N : ℚ) / drawRange ≤ (1 - 1 / (drawRange : ℚ)) ^ N := by
  have h := one_add_mul_le_pow (a := -(1 / (drawRange : ℚ))) (by norm_num [drawRange]) N
  have e : (1 : ℚ) + N * -(1 / (drawRange : ℚ)) = 1 - N / drawRange := by ring
  rw [e, ← sub_eq_add_neg] at h
  exact h

/-- What the walk guarantees, for a weight `g` of the results. -/
theorem randomSat_lower (hm : m.Mono) (f : BDD m) (N : Nat) (hs : ∃ x, f.eval x = true)
    (hN : Fits N [f]) (g : Asg → ℚ) (hg : ∀ x, 0 ≤ g x) :
    (1 - 1 / (drawRange : ℚ)) ^ N * (mean N (fun x => if f.eval x then g x else 0) / onSet N f.eval) ≤
      meanDraws N (fun rs => atResult (fun l => g (asgOf l)) (randomSatisfyingInput f (countMinterms f) N rs)) := by
  have h := walk_lower hm (countMinterms f) N 0 f.edge f.wf (fun _ hb => countMinterms_find f hb)
    (fun v hv => ⟨Nat.zero_le _, by
      have := hN f (by simp) v (by unfold BDD.supportIndices; rw [List.mem_dedup]; exact hv)
      omega⟩) (fun l => g (asgOf l)) (fun l => hg _)
  rw [trueMean_zero, walkMean_zero] at h
  have hpos : 0 < f.edge.frac := (frac_pos_iff f.wf).mpr hs
  have hfr : f.edge.frac = onSet N f.eval :=
    Edge.frac_eq_mean N f.wf (fun v hv => hN f (by simp) v (by
      unfold BDD.supportIndices; rw [List.mem_dedup]; exact hv))
  rw [← hfr, ← mul_div_assoc, div_le_iff₀ hpos]
  exact h

theorem randomSat_bits (hm : m.Mono) (f : BDD m) (N : Nat) (rs : Nat → Nat) :
    ∃ l, randomSatisfyingInput f (countMinterms f) N rs = .ok l ∧ l.length = N ∧ ∀ b ∈ l, b < 2 :=
  randomSatLoop_bits hm (countMinterms f) rs N 0 f.edge f.wf (fun _ hb => countMinterms_find f hb)

/-- For a nonnegative weight bounded by 1 the lower bound gives an upper bound, too. -/
theorem randomSat_event (hm : m.Mono) (f : BDD m) (N : Nat) (hs : ∃ x, f.eval x = true)
    (hN : Fits N [f]) (A : Asg → Bool) :
    (1 - (N : ℚ) / drawRange) * (count N (fun x => f.eval x && A x) / count N f.eval) ≤
      meanDraws N (fun rs => hitProp (fun l => A (asgOf l)) (randomSatisfyingInput f (countMinterms f) N rs)) ∧
    meanDraws N (fun rs => hitProp (fun l => A (asgOf l)) (randomSatisfyingInput f (countMinterms f) N rs)) ≤
      count N (fun x => f.eval x && A x) / count N f.eval +
      (N : ℚ) / drawRange * (1 - count N (fun x => f.eval x && A x) / count N f.eval) := by
  have hpos : 0 < onSet N f.eval := by
    have hfr : f.edge.frac = onSet N f.eval :=
      Edge.frac_eq_mean N f.wf (fun v hv => hN f (by simp) v (by
        unfold BDD.supportIndices; rw [List.mem_dedup]; exact hv))
    rw [← hfr]
    exact (frac_pos_iff f.wf).mpr hs
  have hquo : ∀ B : Asg → Bool, mean N (fun x => if f.eval x then (if B x then (1 : ℚ) else 0) else 0) / onSet N f.eval
      = count N (fun x => f.eval x && B x) / count N f.eval := by
    intro B
    have e1 : mean N (fun x => if f.eval x then (if B x then (1 : ℚ) else 0) else 0)
        = mean N (fun x => ind (f.eval x && B x)) :=
      mean_congr N (fun x => by cases f.eval x <;> cases B x <;> simp)
    rw [e1, count_eq_mean, count_eq_mean]
    have e2 : onSet N f.eval = mean N (fun x => ind (f.eval x)) := rfl
    rw [e2] at hpos ⊢
    field_simp
  have hlow : ∀ B : Asg → Bool, (1 - (N : ℚ) / drawRange) * (count N (fun x => f.eval x && B x) / count N f.eval) ≤
      meanDraws N (fun rs => hitProp (fun l => B (asgOf l)) (randomSatisfyingInput f (countMinterms f) N rs)) := by
    intro B
    have h := randomSat_lower hm f N hs hN (fun x => if B x then 1 else 0) (fun x => by split <;> norm_num)
    rw [hquo] at h
    refine le_trans (mul_le_mul_of_nonneg_right (draw_pow_ge N) ?_) h
    positivity
  refine ⟨hlow A, ?_⟩
  have h2 := hlow (fun x => !A x)
  have hsum : meanDraws N (fun rs => hitProp (fun l => A (asgOf l)) (randomSatisfyingInput f (countMinterms f) N rs)) +
      meanDraws N (fun rs => hitProp (fun l => !A (asgOf l)) (randomSatisfyingInput f (countMinterms f) N rs)) = 1 := by
    rw [← meanDraws_add, ← meanDraws_one N]
    apply congrArg
    funext rs
    obtain ⟨l, hl, _⟩ := randomSat_bits hm f N rs
    rw [hl]
    cases h : A (asgOf l) <;> simp [hitProp, atResult, h]
  have hcnt : (count N (fun x => f.eval x && A x) : ℚ) / count N f.eval +
      count N (fun x => f.eval x && !A x) / count N f.eval = 1 := by
    rw [← hquo, ← hquo, ← add_div, ← mean_add, div_eq_one_iff_eq hpos.ne']
    exact mean_congr N (fun x => by cases f.eval x <;> cases A x <;> simp)
  have e : (count N (fun x => f.eval x && !A x) : ℚ) / count N f.eval
      = 1 - count N (fun x => f.eval x && A x) / count N f.eval := by linarith
  rw [e] at h2
  have e3 : meanDraws N (fun rs => hitProp (fun l => A (asgOf l)) (randomSatisfyingInput f (countMinterms f) N rs))
      = 1 - meanDraws N (fun rs => hitProp (fun l => !A (asgOf l)) (randomSatisfyingInput f (countMinterms f) N rs)) := by
    linarith
  rw [e3]
  have : (1 - (N : ℚ) / drawRange) * (1 - count N (fun x => f.eval x && A x) / count N f.eval)
    = 1 - (count N (fun x => f.eval x && A x) / count N f.eval +
      (N : ℚ) / drawRange * (1 - count N (fun x => f.eval x && A x) / count N f.eval)) := by ring
  linarith

end Verif

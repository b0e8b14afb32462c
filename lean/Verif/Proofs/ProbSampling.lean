import Verif.Proofs.ProbWalk
import Verif.Proofs.ErrorRate

/-!
# Lemmas on the mean and the spread of `error_rate_sampling`
-/

namespace Verif

open scoped BigOperators
open Finset

variable {m : Mgr}

/-- Parities of draws are independent fair bits. -/
theorem expect_parity_vec : ∀ (k : Nat) (G : (Fin k → Bool) → ℚ),
    𝔼 a : Fin k → Fin drawRange, G (fun i => decide ((a i).val % 2 ≠ 0)) = 𝔼 w : Fin k → Bool, G w
  | 0, G => by
    have h1 : ∀ a : Fin 0 → Fin drawRange, G (fun i => decide ((a i).val % 2 ≠ 0)) = G Fin.elim0 :=
      fun a => congrArg G (Subsingleton.elim _ _)
    have h2 : ∀ w : Fin 0 → Bool, G w = G Fin.elim0 := fun w => congrArg G (Subsingleton.elim _ _)
    rw [Finset.expect_congr rfl (fun a _ => h1 a), Finset.expect_congr rfl (fun a _ => h2 a),
      Fintype.expect_const, Fintype.expect_const]
  | k + 1, G => by
    rw [expect_cons, expect_cons, expect_bool]
    have h : ∀ (r : Fin drawRange) (a : Fin k → Fin drawRange),
        G (fun i => decide (((Fin.cons r a : Fin (k + 1) → Fin drawRange) i).val % 2 ≠ 0))
          = G (Fin.cons (decide (r.val % 2 ≠ 0)) (fun i => decide ((a i).val % 2 ≠ 0))) := by
      intro r a
      congr 1
      funext i
      refine Fin.cases ?_ (fun j => ?_) i <;> simp
    simp only [h]
    have h2 : ∀ r : Fin drawRange, (𝔼 a : Fin k → Fin drawRange,
        G (Fin.cons (decide (r.val % 2 ≠ 0)) (fun i => decide ((a i).val % 2 ≠ 0))))
        = 𝔼 w : Fin k → Bool, G (Fin.cons (decide (r.val % 2 ≠ 0)) w) :=
      fun r => expect_parity_vec k (fun w => G (Fin.cons (decide (r.val % 2 ≠ 0)) w))
    rw [Finset.expect_congr rfl (fun r _ => h2 r),
      expect_parity (fun b => 𝔼 w : Fin k → Bool, G (Fin.cons (decide (b ≠ 0)) w))]
    simp

/-- Mean of the square of a sum of independent centred terms. -/
theorem expect_sq {Ω : Type} [Fintype Ω] [Nonempty Ω] (Y : Ω → ℚ) (hY : 𝔼 r, Y r = 0) : ∀ s : Nat,
    𝔼 a : Fin s → Ω, (∑ j, Y (a j)) ^ 2 = s * 𝔼 r, Y r ^ 2
  | 0 => by simp
  | s + 1 => by
    rw [expect_cons]
    have hS : 𝔼 a : Fin s → Ω, ∑ j, Y (a j) = 0 := by
      rw [Finset.expect_sum_comm]
      exact Finset.sum_eq_zero (fun j _ => by rw [expect_coord s j Y, hY])
    have h : ∀ r : Ω, 𝔼 a : Fin s → Ω, (∑ j, Y ((Fin.cons r a : Fin (s + 1) → Ω) j)) ^ 2
        = Y r ^ 2 + s * 𝔼 r, Y r ^ 2 := by
      intro r
      have e : ∀ a : Fin s → Ω, (∑ j, Y ((Fin.cons r a : Fin (s + 1) → Ω) j)) ^ 2
          = Y r ^ 2 + 2 * Y r * (∑ j, Y (a j)) + (∑ j, Y (a j)) ^ 2 := by
        intro a
        rw [Fin.sum_univ_succ]
        simp only [Fin.cons_zero, Fin.cons_succ]
        ring
      rw [Finset.expect_congr rfl (fun a _ => e a), Finset.expect_add_distrib, Finset.expect_add_distrib,
        Fintype.expect_const, ← Finset.mul_expect, hS, expect_sq Y hY s]
      ring
    rw [Finset.expect_congr rfl (fun r _ => h r), Finset.expect_add_distrib, Fintype.expect_const]
    push_cast; ring

theorem seqsOf_apply {s k n : Nat} (a : Fin s → Fin k → Fin n) (j : Fin s) : seqsOf a j.val = seqOf (a j) := by
  simp [seqsOf]

theorem drawn_seqs {s k : Nat} (a : Fin s → Fin k → Fin drawRange) (j : Fin s) :
    drawn k (seqsOf a) j.val = ext (fun i => decide ((a j i).val % 2 ≠ 0)) := by
  funext v
  simp only [drawn, asgOf, ext, List.getD_eq_getElem?_getD]
  by_cases hv : v < k
  · rw [dif_pos hv, List.getElem?_eq_getElem (by simpa using hv)]
    simp [seqsOf_apply, seqOf, hv]
  · rw [dif_neg hv, List.getElem?_eq_none (by simpa using Nat.not_lt.mp hv)]
    simp

/-- The estimate of `error_rate_sampling` as an average of the samples. -/
theorem sampling_estimate (f g : List (BDD m)) (N s : Nat) (hl : f.length = g.length) (hf : Fits N f)
    (hg : Fits N g) (h1 : 1 ≤ s) (h2 : s < 2 ^ 31) (a : Fin s → Fin N → Fin drawRange) :
    errorRateSampling f g N s (seqsOf a) = .ok ((∑ j, (fun w : Fin N → Fin drawRange =>
      if bitsAt f (ext (fun i => decide ((w i).val % 2 ≠ 0))) = bitsAt g (ext (fun i => decide ((w i).val % 2 ≠ 0)))
      then (0 : ℚ) else 1) (a j)) / s) := by
  have hloop := samplingLoop_spec f g N (seqsOf a) hl hf hg s 0
  simp only [Nat.zero_add] at hloop
  have hpos : (0 : ℚ) < s := by exact_mod_cast h1
  rw [errorRateSampling, if_neg (by simp [hl]), if_neg (by omega), Int.toNat_natCast, hloop]
  simp only [bind, Except.bind, fdiv]
  rw [if_neg (by exact_mod_cast hpos.ne'), Int.cast_natCast]
  congr 2
  have key : ∀ (P : Nat → Prop) [DecidablePred P] (n : Nat), (((List.range n).filter (fun j => decide (P j))).length : ℚ)
      = ∑ j ∈ range n, if P j then (1 : ℚ) else 0 := by
    intro P _ n
    induction n with
    | zero => simp
    | succ n ih =>
      rw [List.range_succ, List.filter_append, List.length_append, sum_range_succ, Nat.cast_add, ih]
      congr 1
      by_cases h : P n <;> simp [h]
  rw [key, ← Fin.sum_univ_eq_sum_range (fun j => if bitsAt f (drawn N (seqsOf a) j) ≠ bitsAt g (drawn N (seqsOf a) j)
    then (1 : ℚ) else 0)]
  refine sum_congr rfl (fun j _ => ?_)
  rw [drawn_seqs]
  by_cases h : bitsAt f (ext (fun i => decide ((a j i).val % 2 ≠ 0))) = bitsAt g (ext (fun i => decide ((a j i).val % 2 ≠ 0)))
  · simp only [h, ne_eq, not_true_eq_false, if_false, if_true]
  · simp only [h, ne_eq, not_false_eq_true, if_false, if_true]

end Verif

import Verif.Proofs.OperatorSem
import Mathlib.Tactic.NormNum
import Mathlib.Algebra.Order.Ring.Rat
import Mathlib.Algebra.Order.Field.Rat

/-!
# Lemmas about single-level rounding
-/

namespace Verif

variable {m : Mgr}

theorem roundAny_hit (hm : m.Mono) (f : BDD m) (N : Nat) (hN : Fits N [f]) (ls le : Nat)
    (heavy subset : Bool) : ∃ r, roundAny f ls le heavy subset = .ok r ∧ ∀ x,
      (HitAt (onSet N) heavy ls le f.eval x → r.eval x = !subset) ∧
      (¬ HitAt (onSet N) heavy ls le f.eval x → r.eval x = f.eval x) := by
  obtain ⟨r, hr, hs⟩ := roundAny_spec f ls le heavy subset
  refine ⟨r, hr, fun x => ?_⟩
  have := removeSem_eq hm N (onSet N) Edge.frac (fun a ha hv => frac_onSet N a ha hv) ls le heavy
    subset f.edge.n f.wf (fun v hv => hN f (by simp) v (by
      unfold BDD.supportIndices; rw [List.mem_dedup]; exact hv)) f.edge.neg x
  rw [hs x]
  exact this

theorem localErr_split (N : Nat) (g h : Asg → Bool) (j : Nat) (hj : j < N) (x : Asg) :
    localErr N g h j x = (mean N (fun y => ind (cofAt g j x true y ^^ cofAt h j x true y)) +
      mean N (fun y => ind (cofAt g j x false y ^^ cofAt h j x false y))) / 2 := by
  unfold localErr
  rw [errRate_eq, mean_mix_split N j hj (fun z => ind (g z ^^ h z)) x]
  rfl

theorem mean_xor_const (N : Nat) (g h : Asg → Bool) (z : Bool) (hz : ∀ y, h y = z) :
    mean N (fun y => ind (g y ^^ h y)) = if z then 1 - onSet N g else onSet N g := by
  simp only [hz]
  cases z
  · simp [onSet_eq]
  · simp [onSet_eq, mean_ind_not]

theorem mean_xor_self (N : Nat) (g h : Asg → Bool) (hz : h = g) :
    mean N (fun y => ind (g y ^^ h y)) = 0 := by
  subst hz; simp [mean_const]

/-- Every single-child replacement has at least the error `min {t, 1-t, e, 1-e} / 2`. -/
theorem competitor_bound (N : Nat) (g h : Asg → Bool) (j : Nat) (hj : j < N) (x : Asg)
    (hc : OneChildReplaced g h j x) :
    min (min (onSet N (cofAt g j x true)) (1 - onSet N (cofAt g j x true)))
      (min (onSet N (cofAt g j x false)) (1 - onSet N (cofAt g j x false))) / 2 ≤
      localErr N g h j x := by
  obtain ⟨b, z, h1, h2⟩ := hc
  rw [localErr_split N g h j hj]
  cases b
  · simp only [Bool.not_false] at h2
    rw [mean_xor_const N _ _ z h1, mean_xor_self N _ _ h2, zero_add]
    gcongr
    cases z <;> simp
  · simp only [Bool.not_true] at h2
    rw [mean_xor_const N _ _ z h1, mean_xor_self N _ _ h2, add_zero]
    gcongr
    cases z <;> simp

/-- The function computed at a single level. -/
theorem roundBest_level (hm : m.Mono) (f : BDD m) (N : Nat) (hN : Fits N [f]) (j : Nat) :
    ∃ r, roundBest f j j = .ok r ∧ ∀ x,
      (DepAt f.eval j x → ∀ b y, cofAt r.eval j x b y =
        bestChoice (onSet N (cofAt f.eval j x true)) (onSet N (cofAt f.eval j x false)) b
          (cofAt f.eval j x b y)) ∧
      (¬ DepAt f.eval j x → r.eval x = f.eval x) := by
  obtain ⟨r, hr, hs⟩ := roundBest_spec f j j
  have hv : ∀ v ∈ f.edge.n.vars, v < N := fun v hv => hN f (by simp) v (by
    unfold BDD.supportIndices; rw [List.mem_dedup]; exact hv)
  have he := roundBestSem_eq hm N j f.edge.n f.wf hv f.edge.neg
  refine ⟨r, hr, fun x => ⟨fun hd b y => ?_, fun hd => ?_⟩⟩
  · have := (he (Function.update (mix j x y) j b)).1 ((depAt_upd f.eval j x y b).mpr hd)
    rw [← hs, Function.update_self] at this
    have e1 := cofAt_upd f.eval j x y b true
    have e2 := cofAt_upd f.eval j x y b false
    change r.eval _ = bestChoice (onSet N (cofAt f.eval j _ true)) (onSet N (cofAt f.eval j _ false))
      b (f.eval _) at this
    rw [e1, e2] at this
    exact this
  · rw [hs x]; exact (he x).2 hd

/-- Without ties exactly one child is replaced, with least error. -/
theorem bestChoice_cases (tc ec : ℚ) (hne : tc ≠ ec) (hne1 : tc + ec ≠ 1) :
    ∃ b z : Bool, (∀ fx, bestChoice tc ec b fx = z) ∧ (∀ fx, bestChoice tc ec (!b) fx = fx) ∧
      (if z then 1 - (if b then tc else ec) else (if b then tc else ec)) ≤
        min (min tc (1 - tc)) (min ec (1 - ec)) := by
  by_cases h1 : tc < ec ∧ tc < 1 - ec
  · refine ⟨true, false, fun fx => ?_, fun fx => ?_, ?_⟩
    · rw [bestChoice, if_pos h1]; rfl
    · rw [bestChoice, if_pos h1]; rfl
    · simp only [Bool.false_eq_true, if_false, if_true, le_min_iff]
      refine ⟨⟨le_rfl, ?_⟩, ?_, ?_⟩ <;> linarith [h1.1, h1.2]
  by_cases h2 : ec < tc ∧ ec < 1 - tc
  · refine ⟨false, false, fun fx => ?_, fun fx => ?_, ?_⟩
    · rw [bestChoice, if_neg h1, if_pos h2]; rfl
    · rw [bestChoice, if_neg h1, if_pos h2]; rfl
    · simp only [Bool.false_eq_true, if_false, le_min_iff]
      refine ⟨⟨?_, ?_⟩, ?_, ?_⟩ <;> linarith [h2.1, h2.2]
  by_cases h3 : tc > ec ∧ tc > 1 - ec
  · refine ⟨true, true, fun fx => ?_, fun fx => ?_, ?_⟩
    · rw [bestChoice, if_neg h1, if_neg h2, if_pos h3]; rfl
    · rw [bestChoice, if_neg h1, if_neg h2, if_pos h3]; rfl
    · simp only [if_true, le_min_iff]
      refine ⟨⟨?_, ?_⟩, ?_, ?_⟩ <;> linarith [h3.1, h3.2]
  by_cases h4 : ec > tc ∧ ec > 1 - tc
  · refine ⟨false, true, fun fx => ?_, fun fx => ?_, ?_⟩
    · rw [bestChoice, if_neg h1, if_neg h2, if_neg h3, if_pos h4]; rfl
    · rw [bestChoice, if_neg h1, if_neg h2, if_neg h3, if_pos h4]; rfl
    · simp only [if_true, Bool.false_eq_true, if_false, le_min_iff]
      refine ⟨⟨?_, ?_⟩, ?_, ?_⟩ <;> linarith [h4.1, h4.2]
  · exfalso
    rcases lt_or_gt_of_ne hne with h | h <;> rcases lt_or_gt_of_ne hne1 with h' | h'
    · exact h1 ⟨h, by linarith⟩
    · exact h4 ⟨h, by linarith⟩
    · exact h2 ⟨h, by linarith⟩
    · exact h3 ⟨h, by linarith⟩

/-- In a tie both children become constants. -/
theorem bestChoice_tie (tc ec : ℚ) (h : tc = ec ∨ tc + ec = 1) (b fx : Bool) :
    bestChoice tc ec b fx = decide ((if b then tc else ec) > 1 / 2) := by
  have h1 : ¬ (tc < ec ∧ tc < 1 - ec) := by
    rintro ⟨a, c⟩; rcases h with h | h <;> linarith
  have h2 : ¬ (ec < tc ∧ ec < 1 - tc) := by
    rintro ⟨a, c⟩; rcases h with h | h <;> linarith
  have h3 : ¬ (tc > ec ∧ tc > 1 - ec) := by
    rintro ⟨a, c⟩; rcases h with h | h <;> linarith
  have h4 : ¬ (ec > tc ∧ ec > 1 - tc) := by
    rintro ⟨a, c⟩; rcases h with h | h <;> linarith
  rw [bestChoice, if_neg h1, if_neg h2, if_neg h3, if_neg h4]
  cases b <;> simp

/-- The local error when the cofactors are known. -/
theorem localErr_best (N : Nat) (g r : Asg → Bool) (j : Nat) (hj : j < N) (x : Asg)
    (hc : ∀ b y, cofAt r j x b y =
      bestChoice (onSet N (cofAt g j x true)) (onSet N (cofAt g j x false)) b (cofAt g j x b y)) :
    (onSet N (cofAt g j x true) ≠ onSet N (cofAt g j x false) →
      onSet N (cofAt g j x true) + onSet N (cofAt g j x false) ≠ 1 →
      OneChildReplaced g r j x ∧ localErr N g r j x ≤
        min (min (onSet N (cofAt g j x true)) (1 - onSet N (cofAt g j x true)))
          (min (onSet N (cofAt g j x false)) (1 - onSet N (cofAt g j x false))) / 2) ∧
    localErr N g r j x ≤
        min (min (onSet N (cofAt g j x true)) (1 - onSet N (cofAt g j x true)))
          (min (onSet N (cofAt g j x false)) (1 - onSet N (cofAt g j x false))) := by
  have key : onSet N (cofAt g j x true) ≠ onSet N (cofAt g j x false) →
      onSet N (cofAt g j x true) + onSet N (cofAt g j x false) ≠ 1 →
      OneChildReplaced g r j x ∧ localErr N g r j x ≤
        min (min (onSet N (cofAt g j x true)) (1 - onSet N (cofAt g j x true)))
          (min (onSet N (cofAt g j x false)) (1 - onSet N (cofAt g j x false))) / 2 := by
    intro hne hne1
    obtain ⟨b, z, h1, h2, h3⟩ := bestChoice_cases _ _ hne hne1
    have h1' : ∀ y, cofAt r j x b y = z := fun y => by rw [hc, h1]
    have h2' : cofAt r j x (!b) = cofAt g j x (!b) := funext fun y => by rw [hc, h2]
    refine ⟨⟨b, z, h1', h2'⟩, ?_⟩
    rw [localErr_split N _ _ j hj]
    gcongr
    cases b
    · simp only [Bool.not_false] at h2'
      rw [mean_xor_const N _ _ z h1', mean_xor_self N _ _ h2', zero_add]
      simpa using h3
    · simp only [Bool.not_true] at h2'
      rw [mean_xor_const N _ _ z h1', mean_xor_self N _ _ h2', add_zero]
      simpa using h3
  refine ⟨key, ?_⟩
  have hbt := onSet_bounds N (cofAt g j x true)
  have hbe := onSet_bounds N (cofAt g j x false)
  by_cases htie : onSet N (cofAt g j x true) = onSet N (cofAt g j x false) ∨
      onSet N (cofAt g j x true) + onSet N (cofAt g j x false) = 1
  · have h1 : ∀ y, cofAt r j x true y = decide (onSet N (cofAt g j x true) > 1 / 2) := fun y => by
      rw [hc, bestChoice_tie _ _ htie]; simp
    have h2 : ∀ y, cofAt r j x false y = decide (onSet N (cofAt g j x false) > 1 / 2) := fun y => by
      rw [hc, bestChoice_tie _ _ htie]; simp
    rw [localErr_split N _ _ j hj, mean_xor_const N _ _ _ h1, mean_xor_const N _ _ _ h2]
    generalize onSet N (cofAt g j x true) = tc at *
    generalize onSet N (cofAt g j x false) = ec at *
    by_cases a : tc > 1 / 2 <;> by_cases c : ec > 1 / 2 <;>
      simp only [a, c, decide_true, decide_false, if_true, Bool.false_eq_true, if_false,
        le_min_iff] <;> rcases htie with h | h <;>
      refine ⟨⟨?_, ?_⟩, ?_, ?_⟩ <;> linarith
  · push Not at htie
    refine le_trans (key htie.1 htie.2).2 ?_
    have : 0 ≤ min (min (onSet N (cofAt g j x true)) (1 - onSet N (cofAt g j x true)))
          (min (onSet N (cofAt g j x false)) (1 - onSet N (cofAt g j x false))) := by
      simp only [le_min_iff]
      refine ⟨⟨?_, ?_⟩, ?_, ?_⟩ <;> linarith
    linarith

theorem errRate_tower (N j : Nat) (g h : Asg → Bool) :
    errRate N g h = mean N (fun x => localErr N g h j x) := by
  rw [errRate_eq, mean_tower N j]
  apply mean_congr
  intro x
  rw [localErr, errRate_eq]

end Verif

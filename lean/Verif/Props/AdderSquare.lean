import Verif.Proofs.AdderSquare
import Verif.Props.AdderErrors
import Verif.Props.Add

/-!
# The mean squared error of the approximate adders: C105

`/repo/src/example_bdds/approximate_adders.cpp` measured with `mean_squared_error`,
`/repo/src/error_metrics/average_case_error.cpp:35-63, 78-84`, and `mean_squared_error_add`.
-/

namespace Verif

variable {m : Mgr}

/-! ## C105 -/

/-- The square of the error is known in closed form; `mean_squared_error` returns it with the numbers of inputs on
which two carries are dropped rounded down. It is exact iff each of these numbers is whole, which is decided by the
positions of the windows alone. -/
theorem C105_mean_squared_error (asserts : Bool) (a : ApproxAdder) (n p q : Nat) (h : AdderLegal n p q a)
    (hn : 4 * n ≤ 252) : ∃ f g : List (BDD m), regularAdder n = .ok f ∧
      getApproximateAdder asserts a n p q = .ok g ∧
      mean (2 * n) (fun x => (((uAt f x : Int) - uAt g x : Int) : ℚ) ^ 2) = meanSquareDrop (adderStart n p q a) n ∧
      meanSquaredError .baseTwo f g = .ok (countedSquareDrop (adderStart n p q a) n) ∧
      countedSquareDrop (adderStart n p q a) n ≤ meanSquareDrop (adderStart n p q a) n ∧
      (countedSquareDrop (adderStart n p q a) n = meanSquareDrop (adderStart n p q a) n ↔
        ∀ j < n, ∀ i < j, adderStart n p q a i < adderStart n p q a (i + 1) →
          max (adderStart n p q a j) (i + 1) < adderStart n p q a (j + 1) →
          i + j + 4 ≤ adderStart n p q a i + max (adderStart n p q a j) (i + 1) +
            2 * widestWindow (adderStart n p q a) n) := by
  obtain ⟨f, h1, h2⟩ := regularAdder_spec (m := m) n
  obtain ⟨g, g1, g2⟩ := approximate_ok (m := m) asserts a n p q h
  have hs := g2.starts
  obtain ⟨d, d1, d2, d3⟩ := C03_absolute_difference_unsigned f g
  have hl : d.length = n + 2 := by rw [d2, h2.len, g2.len, max_self]
  have hd : ∀ x, uAt d x = dropSum (opA n x) (opB n x) (adderStart n p q a) n := fun x => by
    have := d3 x
    rw [adder_diff h2 g2] at this
    exact_mod_cast this
  have hfit : Fits (2 * n) d := fits_derived h2.fits g2.fits (fun a b => |(uval a : Int) - uval b|) d3
  have hsz : maxSupportSize d ≤ 2 * n := maxSupportSize_le (fun b hb => supportSize_le_of_fits (hfit b hb))
  obtain ⟨c1, c2⟩ := counted_le (adderStart n p q a) n
  refine ⟨f, g, h1, g1, ?_, ?_, c1, ?_⟩
  · rw [← mean_square_drop hs n (le_refl n)]
    refine mean_congr _ fun x => ?_
    have := adder_diff h2 g2 x
    have e : (((uAt f x : Int) - uAt g x : Int) : ℚ) ^ 2 = ((|(uAt f x : Int) - uAt g x| : Int) : ℚ) ^ 2 := by
      push_cast
      rw [sq_abs]
    rw [e, this]
    simp
  · rw [meanSquaredError, d1, ← pairs_drops hs hl hd hfit]
    exact meanSquaredValue_exact d (by omega) (by omega)
  · rw [c2]
    exact forall_congr' fun j => forall_congr' fun hj => forall_congr' fun i => forall_congr' fun hi =>
      whole_pair hs hi hj

/-- `mean_squared_error_add` is exact. -/
theorem C105_mean_squared_error_add (hm : m.Mono) (asserts : Bool) (a : ApproxAdder) (n p q : Nat)
    (h : AdderLegal n p q a) (hn : 2 * n ≤ 64) : ∃ f g : List (BDD m), regularAdder n = .ok f ∧
      getApproximateAdder asserts a n p q = .ok g ∧
      meanSquaredErrorAdd .baseTwo f g = .ok (meanSquareDrop (adderStart n p q a) n) := by
  obtain ⟨f, g, h1, h2, h3, -⟩ := C105_mean_squared_error (m := m) asserts a n p q h (by omega)
  obtain ⟨f', e1, e2⟩ := regularAdder_spec (m := m) n
  obtain ⟨g', g1, g2⟩ := approximate_ok (m := m) asserts a n p q h
  obtain rfl : f = f' := by rw [h1] at e1; exact Except.ok.inj e1
  obtain rfl : g = g' := by rw [h2] at g1; exact Except.ok.inj g1
  refine ⟨f, g, h1, h2, ?_⟩
  rw [C34_mean_squared_error_add hm .baseTwo f g (by simp [SignOk]) (by simp [SignOk]) (2 * n) e2.fits g2.fits hn
    (by rw [e2.len, g2.len, max_self]; omega), ← h3]
  rfl

theorem aca1_window {n p : Nat} (hp : 1 ≤ p) (hpn : p ≤ n) : widestWindow (aca1Start p) n = p := by
  apply le_antisymm
  · refine Finset.sup_le fun k _ => ?_
    unfold aca1Start
    split <;> omega
  · have := Finset.le_sup (f := fun k => if aca1Start p k < aca1Start p (k + 1) then k + 1 - aca1Start p k else 0)
      (Finset.mem_range.mpr (show p - 1 < n by omega))
    have e : (if aca1Start p (p - 1) < aca1Start p (p - 1 + 1) then p - 1 + 1 - aca1Start p (p - 1) else 0) = p := by
      unfold aca1Start
      rw [if_pos (by omega)]
      omega
    change (if aca1Start p (p - 1) < aca1Start p (p - 1 + 1) then p - 1 + 1 - aca1Start p (p - 1) else 0) ≤ _ at this
    rw [e] at this
    exact this

/-- `ACA_I` with `p` bits per window: the mean squared error is exact iff two windows never lie apart. -/
theorem C105_aca1 (asserts : Bool) (n p q : Nat) (hp : 1 ≤ p) (hpn : p ≤ n) (hn : 4 * n ≤ 252) :
    ∃ f g : List (BDD m), ∃ v, regularAdder n = .ok f ∧ getApproximateAdder asserts .aca1 n p q = .ok g ∧
      meanSquaredError .baseTwo f g = .ok v ∧
      v ≤ mean (2 * n) (fun x => (((uAt f x : Int) - uAt g x : Int) : ℚ) ^ 2) ∧
      (v = mean (2 * n) (fun x => (((uAt f x : Int) - uAt g x : Int) : ℚ) ^ 2) ↔ n < 2 * p) := by
  obtain ⟨f, g, h1, h2, h3, h4, h5, h6⟩ := C105_mean_squared_error (m := m) asserts .aca1 n p q
    ⟨by omega, hp, hpn⟩ hn
  refine ⟨f, g, _, h1, h2, h4, by rw [h3]; exact h5, ?_⟩
  rw [h3, h6]
  change (∀ j < n, ∀ i < j, aca1Start p i < aca1Start p (i + 1) → max (aca1Start p j) (i + 1) < aca1Start p (j + 1) →
          i + j + 4 ≤ aca1Start p i + max (aca1Start p j) (i + 1) + 2 * widestWindow (aca1Start p) n) ↔ _
  rw [aca1_window hp hpn]
  constructor
  · intro hall
    by_contra hc
    have := hall (2 * p - 1) (by omega) (p - 1) (by omega)
    unfold aca1Start at this
    omega
  · intro hc j hj i hi e1 e2
    unfold aca1Start at *
    omega

/-- The closed form for `ACA_I` when two windows never lie apart. -/
theorem C105_aca1_value (n p : Nat) (hp : 1 ≤ p) (hpn : p ≤ n) (hc : n < 2 * p) :
    meanSquareDrop (aca1Start p) n = 2 ^ (p - 1) * (4 ^ (n - p + 1) - 1) / 3 := by
  have e : ∀ k, meanSquareDrop (aca1Start p) k = ∑ j ∈ Finset.range k, ((2 : ℚ) ^ j * (2 ^ aca1Start p (j + 1) - 2 ^ aca1Start p j) +
    ∑ i ∈ Finset.range j, ((2 : ℚ) ^ aca1Start p (i + 1) - 2 ^ aca1Start p i) *
      (2 ^ aca1Start p (j + 1) - 2 ^ laterStart (aca1Start p) i j) / 2) := fun k => rfl
  have low : ∀ k ≤ p - 1, meanSquareDrop (aca1Start p) k = 0 := fun k hk => by
    rw [e]
    refine Finset.sum_eq_zero fun j hj => ?_
    have hj := Finset.mem_range.mp hj
    have e1 : aca1Start p (j + 1) = 0 := by unfold aca1Start; omega
    have e2 : aca1Start p j = 0 := by unfold aca1Start; omega
    rw [e1, e2, Finset.sum_eq_zero (fun i hi => by
      have hi := Finset.mem_range.mp hi
      have e3 : aca1Start p (i + 1) = 0 := by unfold aca1Start; omega
      have e4 : aca1Start p i = 0 := by unfold aca1Start; omega
      rw [e3, e4]
      simp)]
    simp
  have high : ∀ l, p - 1 + l < 2 * p → meanSquareDrop (aca1Start p) (p - 1 + l) = 2 ^ (p - 1) * (4 ^ l - 1) / 3 := by
    intro l
    induction l with
    | zero => intro _; rw [low _ (by omega)]; simp
    | succ l ih =>
      intro hl
      have e0 := e (p - 1 + (l + 1))
      rw [show p - 1 + (l + 1) = p - 1 + l + 1 by omega, Finset.sum_range_succ, ← e, ih (by omega)] at e0
      rw [show p - 1 + (l + 1) = p - 1 + l + 1 by omega, e0]
      have e1 : aca1Start p (p - 1 + l + 1) = l + 1 := by unfold aca1Start; omega
      have e2 : aca1Start p (p - 1 + l) = l := by unfold aca1Start; omega
      rw [e1, e2, Finset.sum_eq_zero (fun i hi => by
        have hi := Finset.mem_range.mp hi
        by_cases hip : i < p - 1
        · have e3 : aca1Start p (i + 1) = 0 := by unfold aca1Start; omega
          have e4 : aca1Start p i = 0 := by unfold aca1Start; omega
          rw [e3, e4]
          simp
        · have e3 : laterStart (aca1Start p) i (p - 1 + l) = l + 1 := by
            unfold laterStart
            rw [e1, e2]
            omega
          rw [e3]
          simp)]
      rw [pow_succ 4 l, pow_add 2 (p - 1) l, pow_succ 2 l, show (4 : ℚ) = 2 * 2 by norm_num, mul_pow]
      ring
  have := high (n - p + 1) (by omega)
  rw [show p - 1 + (n - p + 1) = n by omega] at this
  exact this

/-! ### Examples: the adders of the table of `/repo/experiments/runtime/approximate_adder_error_metrics.cpp` -/

example : AdderLegal 8 5 0 .aca1 := by simp [AdderLegal]
example : AdderLegal 16 2 4 .gear := by simp [AdderLegal]

-- exact: `ACA_I(8, 5)`, `ACA_II(16, 8)`
example : countedSquareDrop (adderStart 8 5 0 .aca1) 8 = 1360 ∧ meanSquareDrop (adderStart 8 5 0 .aca1) 8 = 1360 := by
  decide +kernel
-- too low: `ACA_I(16, 4)`, `GeAr(16, 2, 4)`
example : countedSquareDrop (adderStart 16 4 0 .aca1) 16 < meanSquareDrop (adderStart 16 4 0 .aca1) 16 := by
  decide +kernel
example : countedSquareDrop (adderStart 16 2 4 .gear) 16 < meanSquareDrop (adderStart 16 2 4 .gear) 16 := by
  decide +kernel

end Verif

import Verif.Proofs.Benchmark
import Verif.Props.WorstCase
import Verif.Props.Average
import Verif.Props.Add
import Verif.Props.Adders
import Verif.Props.Relative
import Verif.Props.Parsing

/-!
# What the experiments measure and load: C85, C86

`/repo/experiments/util/benchmark_util.cpp`.
-/

namespace Verif

variable {m : Mgr}

/-! ## C85 -/

/-- What the metrics of the experiments are, after their names and the documentation in
`benchmark_util.hpp`: the value is exact, or as near to it as the search, the bounds or the division behind
it are documented to be. -/
def IsBenchMetric (N : Nat) (f g : List (BDD m)) : BenchMetric → ℚ → Prop
  | .worstCase, q => IsMax (absErrAt f g) q
  | .worstCaseRelativeApprox, q => ∃ w, IsMax (relErrAt .baseTwo f g) w ∧ 3 / 4 * w ≤ q ∧ q ≤ 3 / 2 * w
  | .worstCaseRelativeBinarySearch, q => ∃ w, IsMax (relErrAt .baseTwo f g) w ∧ |q - w| ≤ 1 / 10000
  | .worstCaseRelativeRandomized, q => IsMax (relErrAt .baseTwo f g) q
  | .worstCaseRelativeAdd, q => IsMax (relErrAt .baseTwo f g) q
  | .worstCaseRelativeSymbolic, q => ∃ w, IsMax (relErrAt .baseTwo f g) w ∧ q ≤ w ∧ w < q + 1 / 2 ^ 16
  | .approximateWorstCase5, q => (∀ x, absErrAt f g x ≤ q) ∧
      ((∀ i : Nat, 5 ≤ i → f[i]? = g[i]?) → IsMax (absErrAt f g) q)
  | .averageCase, q => q = mean N (absErrAt f g)
  | .averageRelativeApprox, q =>
      3 / 4 * mean N (relErrAt .baseTwo f g) ≤ q ∧ q ≤ 3 / 2 * mean N (relErrAt .baseTwo f g)
  | .averageRelativeAdd, q => q = mean N (relErrAt .baseTwo f g)
  | .meanSquared, q => q = mean N (fun x => absErrAt f g x ^ 2)
  | .errorRate, q => q = mean N (fun x => if bitsAt f x = bitsAt g x then 0 else 1)
  | .averageBitFlip, q => q = mean N (fun x => (hamming (bitsAt f x) (bitsAt g x) : ℚ))
  | .worstCaseBitFlip, q => IsMax (fun x => (hamming (bitsAt f x) (bitsAt g x) : ℚ)) q

/-- The sizes for which the numbers fit: `n` bits over `N` variables. -/
def BenchRange (m : Mgr) (N n : Nat) : BenchMetric → Prop
  | .worstCase => n ≤ 255
  | .worstCaseRelativeApprox => 1 ≤ n ∧ n ≤ 255
  | .worstCaseRelativeBinarySearch => 1 ≤ n ∧ n ≤ 126
  | .worstCaseRelativeRandomized => m.Mono ∧ 1 ≤ n ∧ n ≤ 61
  | .worstCaseRelativeAdd => m.Mono ∧ N ≤ 64
  | .worstCaseRelativeSymbolic => 1 ≤ n ∧ n ≤ 239
  | .approximateWorstCase5 => n ≤ 255
  | .averageCase => n + 1 + N ≤ 256
  | .averageRelativeApprox => 1 ≤ n ∧ n + 1 + N ≤ 256
  | .averageRelativeAdd => m.Mono ∧ N ≤ 64
  | .meanSquared => 2 * (n + 1) + N ≤ 256
  | .errorRate => 1 ≤ n ∧ N ≤ 1024
  | .averageBitFlip => N ≤ 1023
  | .worstCaseBitFlip => n < 2 ^ 32

/-- The full claim is that this also holds for the binary search, the mean squared error and the two average
relative errors, see below.  The budget is that of the randomised search. -/
theorem C85_metric_partial (N : Nat) (f g : List (BDD m)) (met : BenchMetric) (rs : Nat → Nat → Nat → Nat)
    (hrs : ∀ j i k, rs j i k ≠ 0 ∧ rs j i k ≤ randMax) (fuel : Nat) (hfuel : 2 ^ N + 62 ≤ fuel)
    (hl : f.length = g.length) (hf : Fits N f) (hg : Fits N g) (hr : BenchRange m N f.length met)
    (hb : met ≠ .worstCaseRelativeBinarySearch) (hs : met ≠ .meanSquared)
    (ha : met ≠ .averageRelativeApprox) (ha' : met ≠ .averageRelativeAdd) :
    ∃ q, computeErrorMetric N rs fuel f g met = .ok q ∧ IsBenchMetric N f g met q := by
  have hz : 1 ≤ f.length → f ≠ [] := by
    rintro hn rfl
    simp at hn
  have hs' : ∀ h : List (BDD m), SignOk .baseTwo h := fun h e => by cases e
  have hcast : ∀ w : Nat, IsMax (fun x => |(uAt f x : Int) - uAt g x|) (w : Int) → IsMax (absErrAt f g) (w : ℚ) := by
    rintro w ⟨⟨x, hx⟩, h2⟩
    refine ⟨⟨x, ?_⟩, fun y => ?_⟩
    · unfold absErrAt
      dsimp only at hx
      rw [hx]
      simp
    · unfold absErrAt
      have := h2 y
      exact_mod_cast this
  cases met with
  | worstCase =>
    obtain ⟨w, h1, h2⟩ := C25_worst_case_error_unsigned f g hr (hl ▸ hr)
    exact ⟨w, by simp only [computeErrorMetric, h1]; rfl, hcast w h2⟩
  | worstCaseRelativeApprox =>
    obtain ⟨w, hw⟩ := exists_isMax_relErrAt .baseTwo f g
    obtain ⟨lo, hi, h1, h2, h3, h4⟩ := C45_wcre_bounds f g (hz hr.1) hr.2 (hl ▸ hr.2) w hw
    exact ⟨(lo + hi) / 2, by simp only [computeErrorMetric, h1]; rfl, w, hw, by linarith, by linarith⟩
  | worstCaseRelativeBinarySearch => exact absurd rfl hb
  | worstCaseRelativeRandomized =>
    obtain ⟨c, e, h1⟩ := C42_wcre_randomized_search_terminates hr.1 f g (hz hr.2.1) hr.2.2 (hl ▸ hr.2.2) N 1
      hf hg (le_refl 1) rs hrs fuel hfuel
    obtain ⟨h2, h3⟩ := C42_wcre_randomized_search f g (hz hr.2.1) hr.2.2 (hl ▸ hr.2.2) N 1 rs fuel c e h1
    refine ⟨c / e, ?_, h3⟩
    simp only [computeErrorMetric, h1, bind, Except.bind, fdiv]
    rw [if_neg (by exact_mod_cast h2.ne')]
  | worstCaseRelativeAdd => exact C41_wcre_add hr.1 .baseTwo f g (hs' f) (hs' g) N hf hg hr.2
  | worstCaseRelativeSymbolic =>
    obtain ⟨w, hw⟩ := exists_isMax_relErrAt .baseTwo f g
    obtain ⟨v, h1, h2, h3, -⟩ := C44_wcre_symbolic_division f g (hz hr.1) 16
      (by rw [← hl, max_self]; have := hr.2; omega) w hw
    exact ⟨v, h1, w, hw, h2, h3⟩
  | approximateWorstCase5 =>
    have hr' : f.length ≤ 255 := hr
    obtain ⟨r, h1, h2⟩ := C29_upper_bound_unsigned f g 5 (by norm_num) hl hr'
    refine ⟨r, by simp only [computeErrorMetric, h1]; rfl, fun x => ?_, fun hlow => ?_⟩
    · unfold absErrAt
      exact_mod_cast h2 x
    · obtain ⟨w, hw1, hw⟩ := C25_worst_case_error_unsigned f g hr' (hl ▸ hr')
      by_cases heq : f = g
      · subst heq
        have : r = 0 := by
          have h0 := approxLoop_same 5 ((f.zip f).reverse) [] (by
            intro p hp
            have := List.mem_reverse.mp hp
            obtain ⟨i, hi, rfl⟩ := List.mem_iff_getElem.mp this
            simp)
          rw [approximateWorstCaseError, if_neg (by simp)] at h1
          have e5 : (5 : Int).toNat = 5 := rfl
          simp only [e5, h0] at h1
          exact (Except.ok.inj h1).symm
        subst this
        refine ⟨⟨fun _ => false, by simp [absErrAt]⟩, fun x => by simp [absErrAt]⟩
      · -- the last position at which the functions differ
        have hex : ∃ k : Nat, f[k]? ≠ g[k]? := by
          by_contra hc
          exact heq (List.ext_getElem? (fun i => by by_contra h; exact hc ⟨i, h⟩))
        have hlt : ∀ k : Nat, f[k]? ≠ g[k]? → k < 5 := fun k hk => by
          by_contra hc
          exact hk (hlow k (by omega))
        obtain ⟨k, hk, hj⟩ : ∃ k : Nat, f[k]? ≠ g[k]? ∧ ∀ j : Nat, k < j → f[j]? = g[j]? := by
          obtain ⟨k0, hk0⟩ := hex
          have := Nat.findGreatest_spec (P := fun k : Nat => f[k]? ≠ g[k]?) (n := 5) (hlt k0 hk0).le hk0
          refine ⟨_, this, fun j hj => ?_⟩
          by_contra hc
          exact absurd (Nat.le_findGreatest (P := fun k : Nat => f[k]? ≠ g[k]?) (hlt j hc).le hc) (by omega)
        obtain ⟨r', e1, -, -, e4⟩ := C30_tightness_partial f g 5 (by norm_num) hl hr' w hw k hk hj
        rw [h1] at e1
        obtain rfl := Except.ok.inj e1
        have := e4 (by exact_mod_cast hlt k hk)
        have : r = w := by exact_mod_cast this
        exact this ▸ hcast w hw
  | averageCase =>
    have hr' : f.length + 1 + N ≤ 256 := hr
    exact ⟨_, C33_average_case_error f g N hf hg (by rw [← hl, max_self]; exact hr'), rfl⟩
  | averageRelativeApprox => exact absurd rfl ha
  | averageRelativeAdd => exact absurd rfl ha'
  | meanSquared => exact absurd rfl hs
  | errorRate =>
    obtain ⟨q, h1, h2, -⟩ := C35_error_rate f g N hl hf hg hr.2
    exact ⟨q, h1, h2⟩
  | averageBitFlip =>
    obtain ⟨q, h1, h2, -⟩ := C40_average_bit_flip_error f g N hl hf hg hr
    exact ⟨q, h1, h2⟩
  | worstCaseBitFlip =>
    obtain ⟨v, h1, ⟨x, hx⟩, h2⟩ := C39_worst_case_bit_flip_error f g hl hr
    refine ⟨v, by simp only [computeErrorMetric, h1]; rfl, ⟨x, ?_⟩, fun y => ?_⟩
    · dsimp only at hx ⊢
      rw [hx]
    · exact Nat.cast_le.mpr (h2 y)

/-- The average relative errors are those of the original relative to the approximation: the two are passed
in the wrong order. -/
theorem C85_average_relative_partial (N : Nat) (f g : List (BDD m)) (rs : Nat → Nat → Nat → Nat) (fuel : Nat)
    (hl : f.length = g.length) (hf : Fits N f) (hg : Fits N g) (met : BenchMetric)
    (hm : met = .averageRelativeApprox ∨ met = .averageRelativeAdd) (hr : BenchRange m N f.length met) :
    ∃ q, computeErrorMetric N rs fuel f g met = .ok q ∧ IsBenchMetric N g f met q := by
  rcases hm with rfl | rfl
  · obtain ⟨lo, hi, h1, h2, h3, h4⟩ := C46_acre_bounds g f (by
      rintro rfl
      have := hr.1
      simp [hl] at this) N hg hf (by rw [← hl, max_self]; exact hr.2)
    exact ⟨(lo + hi) / 2, by simp only [computeErrorMetric, h1]; rfl, by linarith, by linarith⟩
  · exact ⟨_, C47_acre_add hr.1 .baseTwo g f (fun e => by cases e) (fun e => by cases e) N hg hf hr.2, rfl⟩

/-- The number `2^k`, and 0 with as many bits. -/
def powerOf (k : Nat) : List (BDD Mgr.id) := List.replicate k .zero ++ [.one]
def zerosOf (k : Nat) : List (BDD Mgr.id) := List.replicate (k + 1) .zero

theorem uAt_zeros_append (k : Nat) (l : List (BDD m)) (x : Asg) :
    uAt (List.replicate k .zero ++ l) x = 2 ^ k * uAt l x := by
  induction k with
  | zero => simp
  | succ k ih =>
    have e : uAt (List.replicate (k + 1) (.zero : BDD m) ++ l) x =
        2 * uAt (List.replicate k (.zero : BDD m) ++ l) x := by
      simp [uAt, bitsAt, List.replicate_succ, uval]
    rw [e, ih]
    ring

/-- The error this makes has no bound: an average relative error of 1 is reported as `2^k`, and as
`2^k` divided by 3/2 or less by the approximation. -/
theorem C85_average_relative_false (k : Nat) (rs : Nat → Nat → Nat → Nat) (fuel : Nat) :
    mean 0 (relErrAt .baseTwo (powerOf k) (zerosOf k)) = 1 ∧
    computeErrorMetric 0 rs fuel (powerOf k) (zerosOf k) .averageRelativeAdd = .ok (2 ^ k) ∧
    (k ≤ 254 → ∃ q, computeErrorMetric 0 rs fuel (powerOf k) (zerosOf k) .averageRelativeApprox = .ok q ∧
      3 / 4 * 2 ^ k ≤ q) := by
  have hp : ∀ x, uAt (powerOf k) x = 2 ^ k := fun x => by
    rw [powerOf, uAt_zeros_append]
    simp [uAt, bitsAt, uval]
  have hz : ∀ x, uAt (zerosOf k) x = 0 := fun x => by
    have := uAt_zeros_append (k + 1) ([] : List (BDD Mgr.id)) x
    rw [List.append_nil] at this
    rw [zerosOf, this]
    simp [uAt, bitsAt, uval]
  have hl : (powerOf k).length = (zerosOf k).length := by simp [powerOf, zerosOf]
  have fp : Fits 0 (powerOf k) := by
    intro b hb v hv
    simp only [powerOf, List.mem_append, List.mem_replicate, List.mem_singleton] at hb
    rcases hb with ⟨-, rfl⟩ | rfl <;> simp [BDD.mem_supportIndices] at hv
  have fz : Fits 0 (zerosOf k) := by
    intro b hb v hv
    simp only [zerosOf, List.mem_replicate] at hb
    obtain ⟨-, rfl⟩ := hb
    simp [BDD.mem_supportIndices] at hv
  have h1 : ∀ x, relErrAt .baseTwo (powerOf k) (zerosOf k) x = 1 := fun x => by
    have : (1 : ℚ) ≤ 2 ^ k := one_le_pow₀ (by norm_num)
    simp only [relErrAt, valAt, hp, hz]
    push_cast
    rw [sub_zero, abs_of_nonneg (by positivity), max_eq_right this, div_self (by positivity)]
  have h2 : ∀ x, relErrAt .baseTwo (zerosOf k) (powerOf k) x = 2 ^ k := fun x => by
    simp only [relErrAt, valAt, hp, hz]
    push_cast
    rw [zero_sub, abs_neg, abs_of_nonneg (by positivity)]
    simp
  have hm : Mgr.id.Mono := fun _ _ h => h
  refine ⟨by rw [mean_congr 0 h1, mean_const], ?_, fun hk => ?_⟩
  · obtain ⟨q, h3, h4⟩ := C85_average_relative_partial 0 (powerOf k) (zerosOf k) rs fuel hl fp fz
      .averageRelativeAdd (.inr rfl) ⟨hm, by norm_num⟩
    rw [h3, show q = mean 0 _ from h4, mean_congr 0 h2, mean_const]
  · obtain ⟨q, h3, h4, -⟩ := C85_average_relative_partial 0 (powerOf k) (zerosOf k) rs fuel hl fp fz
      .averageRelativeApprox (.inl rfl) ⟨by simp [powerOf], by simp [powerOf]; omega⟩
    rw [mean_congr 0 h2, mean_const] at h4
    exact ⟨q, h3, h4⟩

/-- For approximations that are never above the original, as the approximate adders are, the value reported
is at least the right one. -/
theorem C85_average_relative_above (N : Nat) (f g : List (BDD m)) (rs : Nat → Nat → Nat → Nat) (fuel : Nat)
    (hl : f.length = g.length) (hf : Fits N f) (hg : Fits N g) (hr : BenchRange m N f.length .averageRelativeAdd)
    (hle : ∀ x, uAt g x ≤ uAt f x) :
    ∃ q, computeErrorMetric N rs fuel f g .averageRelativeAdd = .ok q ∧ mean N (relErrAt .baseTwo f g) ≤ q := by
  obtain ⟨q, h1, h2⟩ := C85_average_relative_partial N f g rs fuel hl hf hg .averageRelativeAdd (.inr rfl) hr
  refine ⟨q, h1, ?_⟩
  rw [show q = mean N (relErrAt .baseTwo g f) from h2]
  apply mean_mono
  intro x
  have h3 : ((uAt g x : ℚ)) ≤ uAt f x := by exact_mod_cast hle x
  simp only [relErrAt, valAt]
  push_cast
  rw [abs_sub_comm (uAt g x : ℚ), abs_of_nonneg (show (0 : ℚ) ≤ uAt f x by positivity),
    abs_of_nonneg (show (0 : ℚ) ≤ uAt g x by positivity)]
  gcongr

/-- The binary search: C43. -/
theorem C85_binary_search_partial (N : Nat) (f g : List (BDD m)) (rs : Nat → Nat → Nat → Nat) (fuel : Nat)
    (hfuel : 143 ≤ fuel) (hl : f.length = g.length)
    (hr : BenchRange m N f.length .worstCaseRelativeBinarySearch) (w : ℚ) (hw : IsMax (relErrAt .baseTwo f g) w) :
    (w = 0 ∨ 1 ≤ w → ∃ q, computeErrorMetric N rs fuel f g .worstCaseRelativeBinarySearch = .ok q ∧
      (|q - w| ≤ 1 / 20000 ∨ (w ≤ q ∧ q < 3 / 2 * w))) ∧
    (0 < w → w < 1 → computeErrorMetric N rs fuel f g .worstCaseRelativeBinarySearch = .error .ub) := by
  have hf0 : f ≠ [] := by
    rintro rfl
    have := hr.1
    simp at this
  refine ⟨fun h => ?_, fun h0 h1 => ?_⟩
  · obtain ⟨v, h1, h2⟩ := C43_wcre_search_partial .baseTwo f g hf0 (signOk_baseTwo g) (noWrap_baseTwo f g) hr.2
      (hl ▸ hr.2) 16 (le_refl _) (1 / 10000) (by norm_num) w hw h fuel hfuel
    refine ⟨v, h1, h2.imp_left (fun h => by linarith)⟩
  · exact C43_wcre_search_below_one_ub .baseTwo f g hf0 (signOk_baseTwo g) (noWrap_baseTwo f g) 16 (1 / 10000)
      (by norm_num) w hw h0 h1 fuel (by omega)

/-- The binary search is not as precise as documented, and undefined for small errors: the approximation
`x_0 + 2` of the number 3. -/
theorem C85_binary_search_false : ∃ f g : List (BDD Mgr.id), f.length = g.length ∧
    BenchRange .id 1 f.length .worstCaseRelativeBinarySearch ∧ IsMax (relErrAt .baseTwo f g) (1 / 3) ∧
    ∀ rs, ∀ fuel ≥ 143, computeErrorMetric 1 rs fuel f g .worstCaseRelativeBinarySearch = .error .ub := by
  have hmax : IsMax (relErrAt .baseTwo [(BDD.one : BDD .id), .one] [.var 0, .one]) (1 / 3) := by
    have : ∀ x : Asg, relErrAt .baseTwo [(BDD.one : BDD .id), .one] [.var 0, .one] x =
        if x 0 then 0 else 1 / 3 := by
      intro x
      cases h : x 0 <;> norm_num [relErrAt, valAt, uAt, bitsAt, uval, h]
    refine ⟨⟨fun _ => false, by rw [this]; simp⟩, fun x => ?_⟩
    rw [this]
    split <;> norm_num
  have hr : BenchRange .id 1 [(BDD.one : BDD .id), .one].length .worstCaseRelativeBinarySearch :=
    ⟨by simp, by simp⟩
  have key : ∀ f g : List (BDD .id), f.length = g.length →
      BenchRange .id 1 f.length .worstCaseRelativeBinarySearch → IsMax (relErrAt .baseTwo f g) (1 / 3) →
      ∀ rs, ∀ fuel ≥ 143, computeErrorMetric 1 rs fuel f g .worstCaseRelativeBinarySearch = .error .ub :=
    fun f g hl hr hmax rs fuel hfuel =>
      (C85_binary_search_partial 1 f g rs fuel hfuel hl hr (1 / 3) hmax).2 (by norm_num) (by norm_num)
  exact ⟨[.one, .one], [.var 0, .one], rfl, hr, hmax, key [.one, .one] [.var 0, .one] rfl hr hmax⟩

/-- The mean squared error: C33. -/
theorem C85_mean_squared_partial (N : Nat) (f g : List (BDD m)) (rs : Nat → Nat → Nat → Nat) (fuel : Nat)
    (hl : f.length = g.length) (hf : Fits N f) (hg : Fits N g) (hr : BenchRange m N f.length .meanSquared) :
    ∃ q, computeErrorMetric N rs fuel f g .meanSquared = .ok q ∧ q ≤ mean N (fun x => absErrAt f g x ^ 2) ∧
      mean N (fun x => absErrAt f g x ^ 2) ≤ 3 * q := by
  have hr' : 2 * (f.length + 1) + N ≤ 256 := hr
  obtain ⟨q, h1, h2, h3, -⟩ := C33_mean_squared_error_partial f g N hf hg (by rw [← hl, max_self]; exact hr')
  have e : mean N (fun x => (((uAt f x : Int) - uAt g x : Int) : ℚ) ^ 2) = mean N (fun x => absErrAt f g x ^ 2) :=
    mean_congr N (fun x => by simp only [absErrAt, Int.cast_abs, sq_abs])
  exact ⟨q, h1, e ▸ h2, e ▸ h3⟩

/-- `mean_squared_error` truncates the counts: 5/2 instead of 7/2. -/
theorem C85_mean_squared_false : ∃ f g : List (BDD Mgr.id), f.length = g.length ∧ Fits 2 f ∧ Fits 2 g ∧
    BenchRange .id 2 f.length .meanSquared ∧ ∀ rs fuel,
    computeErrorMetric 2 rs fuel f g .meanSquared = .ok (5 / 2) ∧ ¬ IsBenchMetric 2 f g .meanSquared (5 / 2) := by
  refine ⟨[.var 0, .var 1], [.zero, .zero], rfl, by decide +kernel, by decide +kernel,
    by simp [BenchRange], fun rs fuel => ⟨?_, fun h => ?_⟩⟩
  · simp only [computeErrorMetric]
    decide +kernel
  · generalize hf : [BDD.var (m := .id) 0, .var 1] = f at h
    generalize hg : [BDD.zero (m := .id), .zero] = g at h
    have h6 : mean 2 (fun x => (((uAt f x : Int) - uAt g x : Int) : ℚ) ^ 2) = 7 / 2 := by
      subst hf hg
      decide +kernel
    have e : (fun x => absErrAt f g x ^ 2) = fun x => (((uAt f x : Int) - uAt g x : Int) : ℚ) ^ 2 := by
      funext x
      simp only [absErrAt, Int.cast_abs, sq_abs]
    unfold IsBenchMetric at h
    rw [e, h6] at h
    norm_num at h

/-- The documentation: the metrics that are not relative may be given the two functions in either order. -/
theorem C85_symmetric (N : Nat) (f g : List (BDD m)) (rs : Nat → Nat → Nat → Nat) (fuel : Nat)
    (hl : f.length = g.length) (met : BenchMetric)
    (hm : met ∈ [.worstCase, .approximateWorstCase5, .averageCase, .meanSquared, .errorRate, .averageBitFlip,
      .worstCaseBitFlip]) :
    computeErrorMetric N rs fuel f g met = computeErrorMetric N rs fuel g f met := by
  simp only [List.mem_cons, List.not_mem_nil, or_false] at hm
  rcases hm with rfl | rfl | rfl | rfl | rfl | rfl | rfl
  · simp only [computeErrorMetric, worstCaseError]
    rw [bddAbsoluteDifference_comm]
  · simp only [computeErrorMetric]
    rw [approximateWorstCaseError_comm]
  · simp only [computeErrorMetric, averageCaseError]
    rw [bddAbsoluteDifference_comm]
  · simp only [computeErrorMetric, meanSquaredError]
    rw [bddAbsoluteDifference_comm]
  · simp only [computeErrorMetric, errorRate]
    rw [miterLoop_comm f g _ hl, terminalLevel_comm]
  · simp only [computeErrorMetric, averageBitFlipError]
    rw [bitFlipSum_comm, maxSupportSize_append]
    by_cases h : f.length ≠ g.length
    · exact absurd hl h
    · rw [if_neg h, if_neg (fun h' => h' hl.symm)]
  · simp only [computeErrorMetric, worstCaseBitFlipError]
    rw [bitErrorSum_comm]
    rw [if_neg (fun h' => h' hl), if_neg (fun h' => h' hl.symm)]

theorem C85_names : (∀ a b, errorMetricName a = errorMetricName b → a = b) ∧ ∀ a, errorMetricName a ≠ "" := by
  refine ⟨fun a b => ?_, fun a => ?_⟩
  · cases a <;> cases b <;> decide
  · cases a <;> decide

example : ([.worstCase, .worstCaseRelativeApprox, .worstCaseRelativeAdd, .worstCaseRelativeSymbolic,
    .approximateWorstCase5, .averageCase, .averageRelativeApprox, .averageRelativeAdd, .errorRate,
    .averageBitFlip, .worstCaseBitFlip].map fun met => computeErrorMetric 2 (fun _ _ _ => 1) 143
      [BDD.var (m := .id) 0, (BDD.var 0).xor (.var 1)] [.var 0, .zero] met) =
    [.ok 2, .ok (5 / 6), .ok 1, .ok 1, .ok 2, .ok 1, .ok 1, .ok 1, .ok (1 / 2), .ok (1 / 2), .ok 1] := by
  decide +kernel

example : ∀ met : BenchMetric, BenchRange .id 2 2 met := by
  intro met
  have : Mgr.id.Mono := fun a b h => h
  cases met <;> simp [BenchRange, this]

/-! ## C86 -/

/-- Parameters for which the adders are defined: C62 – C64. -/
def AdderLegal (n p q : Nat) : ApproxAdder → Prop
  | .aca1 => n < 2 ^ 31 ∧ 1 ≤ p ∧ p ≤ n
  | .aca2 => n < 2 ^ 31 ∧ 1 ≤ p ∧ p ≤ n ∧ (n = 1 ∨ 2 ≤ p)
  | .gda => n < 2 ^ 31 ∧ 1 ≤ p ∧ p ≤ n ∧ q ≤ 2 ^ 31
  | .gear => n < 2 ^ 31 ∧ 1 ≤ n ∧ 1 ≤ p + q ∧ p + q ≤ n + 1 ∧ (2 ≤ n ∨ 2 ≤ p + q)

/-- The first bit used for the carry into position `k`. -/
def adderStart (n p q : Nat) : ApproxAdder → Nat → Nat
  | .aca1 => aca1Start p
  | .aca2 => blockStart n (n / (n / p + 1)) (p / 2)
  | .gda => blockStart n (n / p) q
  | .gear => gearStart n p q

/-- The weight of the carries that an adder with the starting positions `s` drops. -/
def droppedAt (n : Nat) (s : Nat → Nat) (x : Asg) : Nat :=
  ∑ i ∈ Finset.range n, 2 ^ (i + 1) * (carryFrom (opA n x) (opB n x) (s i) (i + 1) &&
    !carryFrom (opA n x) (opB n x) (s (i + 1)) (i + 1)).toNat

theorem narrow32_eq {n : Nat} (h : n < 2 ^ 32) : narrow32 n = n := Nat.mod_eq_of_lt h

/-- Each name gets the adder that is meant. -/
theorem C86_adder (asserts : Bool) (a : ApproxAdder) (n p q : Nat) (h : AdderLegal n p q a) :
    ∃ f : List (BDD m), getApproximateAdder asserts a n p q = .ok f ∧ f.length = n + 1 ∧ Fits (2 * n) f ∧
      WindowAdder n (adderStart n p q a) f ∧ ∀ x, uAt f x ≤ opA n x + opB n x := by
  cases a with
  | aca1 =>
    obtain ⟨h1, h2, h3⟩ := h
    obtain ⟨f, e1, e2⟩ := almostCorrectAdder1_spec (m := m) asserts (show 0 < n by omega) h1 h2 (.inl h3)
    refine ⟨f, ?_, e2.len, e2.fits, e2.window, e2.le_sum⟩
    rw [getApproximateAdder, narrow32_eq (by omega), narrow32_eq (by omega)]
    exact e1
  | aca2 =>
    obtain ⟨h1, h2, h3, h4⟩ := h
    obtain ⟨f, e1, e2⟩ := almostCorrectAdder2_spec (m := m) asserts (show 0 < n by omega) h1 h2 (by omega)
      (fun _ => h3) h4
    refine ⟨f, ?_, e2.len, e2.fits, e2.window, e2.le_sum⟩
    rw [getApproximateAdder, narrow32_eq (by omega), narrow32_eq (by omega)]
    exact e1
  | gda =>
    obtain ⟨h1, h2, h3, h4⟩ := h
    obtain ⟨f, e1, e2⟩ := blockAdder_spec (m := m) (n := n) (parts := p) (w := q) (by omega)
      (fun _ => div_ne_zero' h2 h3)
    refine ⟨f, ?_, e2.len, e2.fits, e2.window, e2.le_sum⟩
    rw [getApproximateAdder, narrow32_eq (by omega), narrow32_eq (by omega), narrow32_eq (by omega)]
    unfold gracefullyDegradingAdder
    rw [downFrom_pred h4]
    exact e1
  | gear =>
    obtain ⟨h1, h2, h3, h4, h5⟩ := h
    obtain ⟨f, e1, e2⟩ := gear_spec (m := m) h2 h1 h3 h4 h5
    refine ⟨f, ?_, e2.len, e2.fits, e2.window, e2.le_sum⟩
    rw [getApproximateAdder, narrow32_eq (by omega), narrow32_eq (by omega), narrow32_eq (by omega)]
    exact e1

/-- What the experiments report for an adder: the largest and the average weight of the carries it drops, and
how often it drops one. -/
theorem C86_adder_measured (asserts : Bool) (a : ApproxAdder) (n p q : Nat) (h : AdderLegal n p q a)
    (hn : 3 * n ≤ 254) (rs : Nat → Nat → Nat → Nat) (fuel : Nat) :
    ∃ f g : List (BDD m), ∃ w, regularAdder n = .ok f ∧ getApproximateAdder asserts a n p q = .ok g ∧
      computeErrorMetric (2 * n) rs fuel f g .worstCase = .ok w ∧
      IsMax (fun x => (droppedAt n (adderStart n p q a) x : ℚ)) w ∧
      computeErrorMetric (2 * n) rs fuel f g .averageCase =
        .ok (mean (2 * n) (fun x => (droppedAt n (adderStart n p q a) x : ℚ))) ∧
      computeErrorMetric (2 * n) rs fuel f g .errorRate =
        .ok (mean (2 * n) (fun x => if droppedAt n (adderStart n p q a) x = 0 then 0 else 1)) := by
  obtain ⟨f, h1, h2⟩ := regularAdder_spec (m := m) n
  obtain ⟨g, g1, g2, g3, g4, -⟩ := C86_adder (m := m) asserts a n p q h
  have hf : ∀ x, uAt f x = opA n x + opB n x := fun x => (h2.exact_iff x).mpr (fun _ _ h => h)
  have hg : ∀ x, uAt g x + droppedAt n (adderStart n p q a) x = opA n x + opB n x := fun x => (g4 x).2.2.2.1
  have hd : ∀ x, absErrAt f g x = droppedAt n (adderStart n p q a) x := fun x => by
    have : (uAt f x : Int) - uAt g x = droppedAt n (adderStart n p q a) x := by
      have := hf x
      have := hg x
      omega
    rw [absErrAt, this]
    simp
  have hl : f.length = g.length := by rw [h2.len, g2]
  have hb : ∀ x, bitsAt f x = bitsAt g x ↔ droppedAt n (adderStart n p q a) x = 0 := fun x => by
    constructor
    · intro h
      have : uAt f x = uAt g x := congrArg uval h
      have := hf x
      have := hg x
      omega
    · intro h
      refine uval_inj (by simp [bitsAt, hl]) ?_
      have e1 := hf x
      have e2 := hg x
      simp only [uAt] at e1 e2
      omega
  obtain ⟨w, e1, ⟨x, hx⟩, e2⟩ := C25_worst_case_error_unsigned f g (by rw [h2.len]; omega) (by rw [g2]; omega)
  refine ⟨f, g, w, h1, g1, by simp only [computeErrorMetric, e1]; rfl, ⟨⟨x, ?_⟩, fun y => ?_⟩, ?_, ?_⟩
  · dsimp only at hx ⊢
    rw [← hd, absErrAt, hx]
    simp
  · dsimp only
    rw [← hd, absErrAt]
    exact_mod_cast e2 y
  · rw [computeErrorMetric, C33_average_case_error f g (2 * n) h2.fits g3 (by rw [← hl, max_self, h2.len]; omega)]
    exact congrArg Except.ok (mean_congr _ hd)
  · obtain ⟨r, i1, i2, -⟩ := C35_error_rate f g (2 * n) hl h2.fits g3 (by omega)
    rw [computeErrorMetric, i1, i2]
    exact congrArg Except.ok (mean_congr _ (fun x => by simp only [hb]))

/-- The name of a configuration determines the adder. -/
theorem C86_name (a a' : ApproxAdder) (n p q n' p' q' : Nat)
    (h : approximateAdderName a n p q = approximateAdderName a' n' p' q') :
    a = a' ∧ n = n' ∧ p = p' ∧ (a = .gda ∨ a = .gear → q = q') ∧ ∀ asserts,
      getApproximateAdder (m := m) asserts a n p q = getApproximateAdder asserts a' n' p' q' := by
  have key : a = a' ∧ n = n' ∧ p = p' ∧ (a = .gda ∨ a = .gear → q = q') := by
    have l0 : "ACA_1_N".toList = ['A', 'C', 'A', '_', '1', '_', 'N'] := by decide
    have l1 : "ACA_2_N".toList = ['A', 'C', 'A', '_', '2', '_', 'N'] := by decide
    have l2 : "GDA_St_N".toList = ['G', 'D', 'A', '_', 'S', 't', '_', 'N'] := by decide
    have l3 : "GeAr_N".toList = ['G', 'e', 'A', 'r', '_', 'N'] := by decide
    have l4 : "_Q".toList = ['_', 'Q'] := by decide
    have l5 : "_M".toList = ['_', 'M'] := by decide
    have l6 : "_P".toList = ['_', 'P'] := by decide
    have l7 : "_R".toList = ['_', 'R'] := by decide
    have e1 : ∀ n p q, approximateAdderName .aca1 n p q = 'A' :: 'C' :: 'A' :: '_' :: '1' :: '_' :: 'N' ::
        (Nat.toDigits 10 n ++ '_' :: 'Q' :: Nat.toDigits 10 p) := fun n p q => by
      delta approximateAdderName
      simp only [List.append_assoc, l0, l1, l4, List.cons_append, List.nil_append]
    have e2 : ∀ n p q, approximateAdderName .aca2 n p q = 'A' :: 'C' :: 'A' :: '_' :: '2' :: '_' :: 'N' ::
        (Nat.toDigits 10 n ++ '_' :: 'Q' :: Nat.toDigits 10 p) := fun n p q => by
      delta approximateAdderName
      simp only [List.append_assoc, l0, l1, l4, List.cons_append, List.nil_append]
    have e3 : ∀ n p q, approximateAdderName .gda n p q = 'G' :: 'D' :: 'A' :: '_' :: 'S' :: 't' :: '_' :: 'N' ::
        (Nat.toDigits 10 n ++ '_' :: 'M' :: (Nat.toDigits 10 p ++ '_' :: 'P' :: Nat.toDigits 10 q)) :=
      fun n p q => by
        delta approximateAdderName
        simp only [List.append_assoc, l2, l3, l5, l6, l7, List.cons_append, List.nil_append]
    have e4 : ∀ n p q, approximateAdderName .gear n p q = 'G' :: 'e' :: 'A' :: 'r' :: '_' :: 'N' ::
        (Nat.toDigits 10 n ++ '_' :: 'R' :: (Nat.toDigits 10 p ++ '_' :: 'P' :: Nat.toDigits 10 q)) :=
      fun n p q => by
        delta approximateAdderName
        simp only [List.append_assoc, l2, l3, l5, l6, l7, List.cons_append, List.nil_append]
    have two : ∀ {c : Char} {n p n' p' : Nat}, Nat.toDigits 10 n ++ '_' :: c :: Nat.toDigits 10 p =
        Nat.toDigits 10 n' ++ '_' :: c :: Nat.toDigits 10 p' → n = n' ∧ p = p' := by
      intro c n p n' p' h
      obtain ⟨h1, h2⟩ := digits_split h
      rw [List.cons.injEq] at h2
      exact ⟨h1, toDigits_inj h2.2⟩
    have three : ∀ {c : Char} {n p q n' p' q' : Nat},
        Nat.toDigits 10 n ++ '_' :: c :: (Nat.toDigits 10 p ++ '_' :: 'P' :: Nat.toDigits 10 q) =
        Nat.toDigits 10 n' ++ '_' :: c :: (Nat.toDigits 10 p' ++ '_' :: 'P' :: Nat.toDigits 10 q') →
          n = n' ∧ p = p' ∧ q = q' := by
      intro c n p q n' p' q' h
      obtain ⟨h1, h2⟩ := digits_split h
      rw [List.cons.injEq] at h2
      obtain ⟨h3, h4⟩ := two h2.2
      exact ⟨h1, h3, h4⟩
    have hne : ∀ {c d : Char} {l l' : List Char}, c :: l = d :: l' → c = d ∧ l = l' := by
      intro c d l l' h
      rwa [List.cons.injEq] at h
    cases a <;> cases a' <;> simp only [e1, e2, e3, e4] at h
    · obtain ⟨rfl, rfl⟩ := two (hne (hne (hne (hne (hne (hne (hne h).2).2).2).2).2).2).2
      simp
    · exact absurd (hne (hne (hne (hne (hne h).2).2).2).2).1 (by decide)
    · exact absurd (hne h).1 (by decide)
    · exact absurd (hne h).1 (by decide)
    · exact absurd (hne (hne (hne (hne (hne h).2).2).2).2).1 (by decide)
    · obtain ⟨rfl, rfl⟩ := two (hne (hne (hne (hne (hne (hne (hne h).2).2).2).2).2).2).2
      simp
    · exact absurd (hne h).1 (by decide)
    · exact absurd (hne h).1 (by decide)
    · exact absurd (hne h).1 (by decide)
    · exact absurd (hne h).1 (by decide)
    · obtain ⟨rfl, rfl, rfl⟩ := three (hne (hne (hne (hne (hne (hne (hne (hne h).2).2).2).2).2).2).2).2
      simp
    · exact absurd (hne (hne h).2).1 (by decide)
    · exact absurd (hne h).1 (by decide)
    · exact absurd (hne h).1 (by decide)
    · exact absurd (hne (hne h).2).1 (by decide)
    · obtain ⟨rfl, rfl, rfl⟩ := three (hne (hne (hne (hne (hne (hne h).2).2).2).2).2).2
      simp
  obtain ⟨rfl, rfl, rfl, hq⟩ := key
  refine ⟨rfl, rfl, rfl, hq, fun asserts => ?_⟩
  cases a with
  | aca1 => rfl
  | aca2 => rfl
  | gda => rw [hq (.inl rfl)]
  | gear => rw [hq (.inr rfl)]

/-- The widths are converted to 32 bits without notice: an adder of `2^32 + 1` bits gets the name of its width,
but one bit. -/
theorem C86_narrowing : getApproximateAdder (m := m) true .aca1 (2 ^ 32 + 1) 1 0 =
    getApproximateAdder true .aca1 1 1 0 ∧
    approximateAdderName .aca1 (2 ^ 32 + 1) 1 0 ≠ approximateAdderName .aca1 1 1 0 := by
  refine ⟨rfl, fun h => ?_⟩
  have := (C86_name (m := .id) _ _ _ _ _ _ _ _ h).2.1
  omega

/-- The enumerators of `ISCAS85File` and `EPFLFile` with their numbers, `benchmark_util.hpp:50-64`, `87-100`. -/
def iscasEnum : List String :=
  ["C17", "C432", "C499", "C880", "C1355", "C1908", "C2670", "C3540", "C5315", "C6288", "C7552"]
def epflEnum : List String :=
  ["Adder", "Bar", "Div", "Hyp", "Log2", "Max", "Mul", "Sin", "Sqrt", "Square"]

/-- Each enumerator names its file: the file of an ISCAS circuit is its name in small letters; the one of
an EPFL circuit begins with the name in small letters (`Mul` stands for `multiplier`).  Different enumerators have
different files, and other numbers are refused. -/
theorem C86_files (i : Nat) :
    (∀ s, iscasEnum[i]? = some s →
      ∃ p, iscasFilepath i = .ok p ∧ p.toList = "./iscas85/".toList ++ s.toList.map Char.toLower ++ ".aig".toList) ∧
    (∀ s, epflEnum[i]? = some s →
      ∃ p t, epflFilepath i = .ok p ∧ (t ≠ [] → s = "Mul") ∧
        p.toList = "./epfl/".toList ++ s.toList.map Char.toLower ++ t ++ ".aig".toList) ∧
    (11 ≤ i → iscasFilepath i = .error .logicError) ∧ (10 ≤ i → epflFilepath i = .error .logicError) := by
  refine ⟨fun s h => ?_, fun s h => ?_, fun h => ?_, fun h => ?_⟩
  · have hi : i < 11 := lt_of_getElem? h
    interval_cases i <;> (simp only [iscasEnum] at h; obtain rfl := Option.some.inj h; exact ⟨_, rfl, by decide⟩)
  · have hi : i < 10 := lt_of_getElem? h
    by_cases h6 : i = 6
    · subst h6
      obtain rfl := Option.some.inj h
      exact ⟨_, "tiplier".toList, rfl, fun _ => rfl, by decide⟩
    · interval_cases i <;> first
        | exact absurd rfl h6
        | (obtain rfl := Option.some.inj h; exact ⟨_, [], rfl, fun h => absurd rfl h, by decide⟩)
  · simp [iscasFilepath, iscasFilename, fileById, h, bind, Except.bind]
  · simp [epflFilepath, epflFilename, fileById, h, bind, Except.bind]

theorem C86_files_differ (i j : Nat) (p : String) :
    (iscasFilepath i = .ok p → iscasFilepath j = .ok p → i = j) ∧
    (epflFilepath i = .ok p → epflFilepath j = .ok p → i = j) ∧
    (iscasFilepath i = .ok p → epflFilepath j ≠ .ok p) := by
  have get : ∀ (l : List String) (pre : String) (i : Nat),
      (do let name ← fileById l i; Except.ok (pre ++ name)) = (.ok p : Except Fault String) →
        ∃ s, l[i]? = some s ∧ p.toList = pre.toList ++ s.toList := by
    intro l pre i h
    rw [fileById] at h
    by_cases hi : i ≥ l.length
    · rw [if_pos hi] at h
      simp [bind, Except.bind] at h
    · rw [if_neg hi, vget_eq l i "" (by omega)] at h
      have := Except.ok.inj h
      exact ⟨l.getD i "", by simp [List.getD, List.getElem?_eq_getElem (not_le.mp hi)], by rw [← this]; simp⟩
  have inj : ∀ (l : List String) (pre : String) (i j : Nat), l.Nodup →
      (do let name ← fileById l i; Except.ok (pre ++ name)) = (.ok p : Except Fault String) →
      (do let name ← fileById l j; Except.ok (pre ++ name)) = (.ok p : Except Fault String) → i = j := by
    intro l pre i j hn h1 h2
    obtain ⟨s, hs, e1⟩ := get l pre i h1
    obtain ⟨t, ht, e2⟩ := get l pre j h2
    rw [e1] at e2
    have : s = t := String.toList_injective (List.append_cancel_left e2)
    subst this
    exact (List.getElem?_inj (lt_of_getElem? hs) hn).mp (hs.trans ht.symm)
  refine ⟨inj _ _ i j (by decide), inj _ _ i j (by decide), fun h1 h2 => ?_⟩
  obtain ⟨s, -, e1⟩ := get _ "./iscas85/" i h1
  obtain ⟨t, -, e2⟩ := get _ "./epfl/" j h2
  rw [e1] at e2
  have := congrArg (fun l => l[2]?) e2
  simp at this

/-- A circuit in the file is what `load_iscas_85_file` and `load_epfl_benchmark_file` return. -/
theorem C86_load (asserts : Bool) (files : String → List AigEvent × Bool) (i : Nat) (path : String)
    (vs ni l no a : Nat) (es : List AigEvent)
    (hvs : 2 * vs + 2 ≤ 2 ^ 32) (hb : AigBody vs ni no [] es)
    (ho : ∀ j < no, aigOutput j es / 2 = 0 ∨ aigOutput j es / 2 ∈ aigDeclared es)
    (hfile : files path = (.header vs ni l no a :: es, true)) :
    ∃ outs : List (BDD m), (iscasFilepath i = .ok path → loadIscas asserts files i = .ok outs) ∧
      (epflFilepath i = .ok path → loadEpfl asserts files i = .ok outs) ∧
      outs.length = no ∧ ∀ (j : Nat) (f : BDD m), outs[j]? = some f →
        ∀ x σ, AigValues es x σ → f.eval x = σ (aigOutput j es) := by
  obtain ⟨s, h1, outs, h2, h3⟩ := C67_circuit (m := m) asserts vs ni l no a es hvs hb ho
  refine ⟨outs, fun hp => ?_, fun hp => ?_, h3⟩
  · simp only [loadIscas, hp, hfile, h1, h2, bind, Except.bind, if_true]
  · simp only [loadEpfl, hp, hfile, h1, h2, bind, Except.bind]

/-- An ISCAS file that cannot be read is reported … -/
theorem C86_load_failure_partial (asserts : Bool) (files : String → List AigEvent × Bool) (i : Nat)
    (path : String) (hp : iscasFilepath i = .ok path) (hfail : (files path).2 = false) (r : List (BDD m)) :
    loadIscas asserts files i ≠ .ok r := by
  intro h
  simp only [loadIscas, hp, hfail, bind, Except.bind] at h
  split at h <;> simp at h

/-- … but a missing EPFL file is taken for a circuit without outputs. -/
theorem C86_load_failure_false (asserts : Bool) (files : String → List AigEvent × Bool) (i : Nat)
    (path : String) (hp : epflFilepath i = .ok path) (hfail : files path = ([], false)) :
    loadEpfl (m := m) asserts files i = .ok [] := by
  simp only [loadEpfl, hp, hfail, bind, Except.bind]
  rfl

example : AdderLegal 8 4 2 .gda ∧ AdderLegal 8 1 5 .gear ∧ AdderLegal 16 8 0 .aca2 ∧ AdderLegal 8 5 0 .aca1 := by
  simp [AdderLegal]
example : String.ofList (approximateAdderName .gda 8 4 2) = "GDA_St_N8_M4_P2" := by decide
example : iscasFilepath 4 = .ok "./iscas85/c1355.aig" ∧ epflFilepath 6 = .ok "./epfl/multiplier.aig" := ⟨rfl, rfl⟩
end Verif

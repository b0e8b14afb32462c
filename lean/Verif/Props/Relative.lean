import Verif.Proofs.RelSearch

/-!
# C42 – C47: relative errors computed with BDDs

The signed functions inherit the wrap-around of `bdd_absolute_difference` (C04); `NoWrap` says that no
difference leaves the number range.  `f ≠ []` is needed because `bdd_max_one` reads `result[0]`.
-/

namespace Verif

variable {m : Mgr}

/-! ## C42 `wcre_randomized_search` -/

/-- Whatever is returned is the worst case relative error, for every random sequence (`rs`), sample
count and number of iterations.  The limit of 61 bits keeps the `long` conversions exact; from 64 bits
on `eval` is undefined. -/
theorem C42_wcre_randomized_search (f g : List (BDD m)) (hf : f ≠ []) (hfl : f.length ≤ 61)
    (hgl : g.length ≤ 61) (readSize samples : Nat) (rs : Nat → Nat → Nat → Nat) (fuel c e : Nat)
    (h : wcreRandomizedSearch .baseTwo f g readSize samples rs fuel = .ok (c, e)) :
    0 < e ∧ IsMax (relErrAt .baseTwo f g) (c / e) := by
  obtain ⟨D, A, F, hp⟩ := prepare .baseTwo f g hf (signOk_baseTwo g) (noWrap_baseTwo f g)
  simp only [wcreRandomizedSearch, hp.abs, hp.maxOne, hp.diff, bind, Except.bind] at h
  obtain ⟨h1, h2⟩ := randomizedSearch_sound D F hp.pos (by have := hp.lenD; omega)
    (by have := hp.lenF; omega) readSize samples rs fuel (c, e) h
  refine ⟨h1, ?_⟩
  have := h2.isMax hp.pos h1
  simpa only [hp.ratio] using this

/-- The same for two's complement numbers whose differences do not wrap. -/
theorem C42_wcre_randomized_search_signed_partial (f g : List (BDD m)) (hf : f ≠ []) (hg : g ≠ [])
    (hw : NoWrap .twosComplement f g) (hfl : f.length ≤ 61) (hgl : g.length ≤ 61)
    (readSize samples : Nat) (rs : Nat → Nat → Nat → Nat) (fuel c e : Nat)
    (h : wcreRandomizedSearch .twosComplement f g readSize samples rs fuel = .ok (c, e)) :
    0 < e ∧ IsMax (relErrAt .twosComplement f g) (c / e) := by
  obtain ⟨D, A, F, hp⟩ := prepare .twosComplement f g hf (fun _ => hg) hw
  simp only [wcreRandomizedSearch, hp.abs, hp.maxOne, hp.diff, bind, Except.bind] at h
  obtain ⟨h1, h2⟩ := randomizedSearch_sound D F hp.pos (by have := hp.lenD; omega)
    (by have := hp.lenF; omega) readSize samples rs fuel (c, e) h
  refine ⟨h1, ?_⟩
  have := h2.isMax hp.pos h1
  simpa only [hp.ratio] using this

/-- Counterexample with a wrapped difference: 1 is returned, the relative error is 3. -/
theorem C42_wcre_randomized_search_signed_false : ∃ f g : List (BDD Mgr.id), f.length = g.length ∧
    (∀ rs fuel, wcreRandomizedSearch .twosComplement f g 0 1 rs fuel = .ok (1, 1)) ∧
    IsMax (relErrAt .twosComplement f g) 3 :=
  ⟨[.one, .zero], [.zero, .one], rfl, fun rs fuel => by
    have h1 : bddAbs .twosComplement [(BDD.one : BDD .id), .zero] = .ok [.one, .zero] := by
      decide +kernel
    have h2 : bddMaxOne [(BDD.one : BDD .id), .zero] = .ok [.one, .zero] := by decide +kernel
    have h3 : bddAbsoluteDifference .twosComplement [(BDD.one : BDD .id), .zero] [.zero, .one] =
        .ok [.one, .zero] := by decide +kernel
    have h4 : hasGreaterEqualBoth [(BDD.one : BDD .id), .zero] [.one, .zero] 1 1 = .ok (true, true) := by
      decide +kernel
    have h5 : [(BDD.one : BDD .id), .zero].all (·.isZero) = false := by decide +kernel
    simp only [wcreRandomizedSearch, h1, h2, h3, bind, Except.bind, randomizedSearch, h5, h4]
    rfl, signed_witness⟩

/-- 2^63 as a constant function. -/
def bigConstant : List (BDD Mgr.id) := List.replicate 63 .zero ++ [.one]

/-- The limit on the number of bits matters: 64 bits make the conversion to `long` saturate, the result
is one less than the relative error. -/
theorem C42_wcre_randomized_search_saturates : ∃ f g : List (BDD Mgr.id),
    (wcreRandomizedSearch .baseTwo f g 0 1 (fun _ _ _ => 1) 64).toOption = some (2 ^ 63 - 1, 1) ∧
    IsMax (relErrAt .baseTwo f g) (2 ^ 63) := by
  have hx : ∀ x, relErrAt .baseTwo [BDD.zero] bigConstant x = 2 ^ 63 := by
    intro x
    norm_num [relErrAt, valAt, uAt, bitsAt, uval, bigConstant, List.replicate]
  have h : (wcreRandomizedSearch .baseTwo [BDD.zero] bigConstant 0 1 (fun _ _ _ => 1) 64).toOption =
      some (2 ^ 63 - 1, 1) := by decide +kernel
  exact ⟨_, _, h, ⟨fun _ => false, hx _⟩, fun x => (hx x).le⟩

/-- It does return: with at least one sample per round and random numbers that avoid 0 (C20), within
`2^n + 62` iterations of each loop, where `n = mgr.ReadSize()`. -/
theorem C42_wcre_randomized_search_terminates (hm : m.Mono) (f g : List (BDD m)) (hf : f ≠ [])
    (hfl : f.length ≤ 61) (hgl : g.length ≤ 61) (n samples : Nat) (hfN : Fits n f) (hgN : Fits n g)
    (hs : 1 ≤ samples) (rs : Nat → Nat → Nat → Nat)
    (hrs : ∀ j i k, rs j i k ≠ 0 ∧ rs j i k ≤ randMax) (fuel : Nat) (hfuel : 2 ^ n + 62 ≤ fuel) :
    ∃ c e, wcreRandomizedSearch .baseTwo f g n samples rs fuel = .ok (c, e) := by
  obtain ⟨D, A, F, hp⟩ := prepare .baseTwo f g hf (signOk_baseTwo g) (noWrap_baseTwo f g)
  obtain ⟨s, rfl⟩ : ∃ s, samples = s + 1 := ⟨samples - 1, by omega⟩
  obtain ⟨res, h⟩ := randomizedSearch_terminates hm D F hp.pos (by have := hp.lenD; omega)
    (by have := hp.lenF; omega) n s (hp.fitsD hfN hgN) (hp.fitsF hfN) rs hrs fuel hfuel
  refine ⟨res.1, res.2, ?_⟩
  simp only [wcreRandomizedSearch, hp.abs, hp.maxOne, hp.diff, bind, Except.bind, h]

/-- Without samples it only returns if the worst case relative error is 0 or a power of two; otherwise
it runs for ever. -/
theorem C42_wcre_randomized_search_no_samples (f g : List (BDD m)) (hf : f ≠ [])
    (hfl : f.length ≤ 61) (hgl : g.length ≤ 61) (n : Nat) (rs : Nat → Nat → Nat → Nat) (fuel : Nat)
    (w : ℚ) (hw : IsMax (relErrAt .baseTwo f g) w) (hw0 : w ≠ 0)
    (hw2 : ∀ k : Nat, w ≠ 2 ^ k ∧ w ≠ 1 / 2 ^ k) :
    wcreRandomizedSearch .baseTwo f g n 0 rs fuel = .error .fuel := by
  obtain ⟨D, A, F, hp⟩ := prepare .baseTwo f g hf (signOk_baseTwo g) (noWrap_baseTwo f g)
  have hD : D.length ≤ 62 := by have := hp.lenD; omega
  have hF : F.length ≤ 62 := by have := hp.lenF; omega
  simp only [wcreRandomizedSearch, hp.abs, hp.maxOne, hp.diff, bind, Except.bind]
  rcases randomizedSearch_no_samples D F hp.pos hD hF n rs fuel with h | ⟨c, e, h, hce⟩
  · exact h
  · exfalso
    obtain ⟨h1, h2⟩ := randomizedSearch_sound D F hp.pos hD hF n 0 rs fuel (c, e) h
    have h3 := h2.isMax hp.pos h1
    simp only [hp.ratio] at h3
    have h4 := hw.unique h3
    rcases hce with ⟨rfl, rfl⟩ | ⟨k, ⟨rfl, rfl⟩ | ⟨rfl, rfl⟩⟩
    · simp at h4; exact hw0 h4
    · push_cast at h4
      rw [div_one] at h4
      exact (hw2 k).1 h4
    · push_cast at h4
      exact (hw2 k).2 h4

/-- A relative error of 4/3 found with one sample per round. -/
example : wcreRandomizedSearch .baseTwo [(BDD.one : BDD .id), .one, .zero] [.one, .one, .var 0] 1 1
    (fun _ _ _ => 1) 70 = .ok (4, 3) := by decide +kernel

/-! ## C43 `wcre_search` -/

/-- For a worst case relative error `w` of 0 or at least 1, with 16 or more extra bits and a precision
of at least `2^-16`, the result is within half of the precision of `w` or overestimates it by less
than a half of `w`.  Missing for the full claim: the overestimate must not happen, and errors between
0 and 1 must be handled. -/
theorem C43_wcre_search_partial (r : NumRep) (f g : List (BDD m)) (hf : f ≠ []) (hg : SignOk r g)
    (hnw : NoWrap r f g) (hfl : f.length ≤ 126) (hgl : g.length ≤ 126) (e : Nat) (he : 16 ≤ e)
    (precision : ℚ) (hp : 1 / 2 ^ 16 ≤ precision) (w : ℚ) (hw : IsMax (relErrAt r f g) w)
    (hw1 : w = 0 ∨ 1 ≤ w) (fuel : Nat) (hfuel : 143 ≤ fuel) :
    ∃ v, wcreSearch r f g e precision fuel = .ok v ∧
      (|v - w| ≤ precision / 2 ∨ (w ≤ v ∧ v < 3 / 2 * w)) := by
  obtain ⟨D, A, F, hpr⟩ := prepare r f g hf hg hnw
  have hw' : IsMax (fun x => (uAt D x : ℚ) / uAt F x) w := by simpa only [hpr.ratio] using hw
  obtain ⟨v, hv, hok⟩ := relativeSearch_spec D F hpr.pos (by have := hpr.lenD; omega) e he precision hp
    w hw' hw1 fuel hfuel
  exact ⟨v, by simp only [wcreSearch, hpr.abs, hpr.maxOne, hpr.diff, bind, Except.bind, hv], hok⟩

/-- Counterexample for the precision: the worst case relative error is 4/3, the search claims to have
found 3/2 exactly.  The inputs removed by the mask compare equal (`0 = 0`). -/
theorem C43_wcre_search_false : ∃ f g : List (BDD Mgr.id), f.length = g.length ∧
    wcreSearch .baseTwo f g 16 (1 / 10000) 143 = .ok (3 / 2) ∧
    IsMax (relErrAt .baseTwo f g) (4 / 3) := by
  refine ⟨[.one, .one, .zero], [.one, .one, .var 0], rfl, by decide +kernel, ?_⟩
  have : ∀ x : Asg, relErrAt .baseTwo [(BDD.one : BDD .id), .one, .zero] [.one, .one, .var 0] x =
      if x 0 then 4 / 3 else 0 := by
    intro x
    cases h : x 0 <;> simp [relErrAt, valAt, uAt, bitsAt, uval, h]
  refine ⟨⟨fun _ => true, by rw [this]; simp⟩, fun x => ?_⟩
  rw [this]
  split <;> norm_num

/-- Every worst case relative error strictly between 0 and 1 runs into the undefined conversion of
`log2(0.5)` to `size_t` (C08), for every number of extra bits and every precision below 1. -/
theorem C43_wcre_search_below_one_ub (r : NumRep) (f g : List (BDD m)) (hf : f ≠ []) (hg : SignOk r g)
    (hnw : NoWrap r f g) (e : Nat) (precision : ℚ) (hp : precision < 1) (w : ℚ)
    (hw : IsMax (relErrAt r f g) w) (hw0 : 0 < w) (hw1 : w < 1) (fuel : Nat) (hfuel : 1 ≤ fuel) :
    wcreSearch r f g e precision fuel = .error .ub := by
  obtain ⟨D, A, F, hpr⟩ := prepare r f g hf hg hnw
  obtain ⟨k, rfl⟩ : ∃ k, fuel = k + 1 := ⟨fuel - 1, by omega⟩
  simp only [wcreSearch, hpr.abs, hpr.maxOne, hpr.diff, bind, Except.bind]
  refine relativeSearch_ub D F hpr.pos ?_ (fun x => ?_) e precision hp k
  · obtain ⟨⟨x, hx⟩, _⟩ := hw
    refine ⟨x, fun h => ?_⟩
    rw [← hpr.ratio x, h] at hx
    simp at hx
    linarith
  · have h1 := hw.2 x
    rw [← hpr.ratio x] at h1
    have hFx : (0 : ℚ) < uAt F x := by exact_mod_cast hpr.pos x
    have h2 : (uAt D x : ℚ) / uAt F x < 1 := lt_of_le_of_lt h1 hw1
    rw [div_lt_one hFx] at h2
    exact_mod_cast h2

/-- An exact result above 1, and the undefined case for a relative error of 1/3. -/
example : wcreSearch .baseTwo [(BDD.zero : BDD .id), .one, .zero] [.one, .one, .one] 16
    (1 / 10000) 143 = .ok (5 / 2) := by decide +kernel
example : wcreSearch .baseTwo [(BDD.one : BDD .id), .one] [.var 0, .one] 16 (1 / 10000) 143 =
    .error .ub := by decide +kernel

/-! ## C44 `wcre_symbolic_division` -/

/-- The result is the worst case relative error cut off after `e` binary digits. -/
theorem C44_wcre_symbolic_division (f g : List (BDD m)) (hf : f ≠ []) (e : Nat)
    (he : max f.length g.length + 1 + e ≤ 256) (w : ℚ) (hw : IsMax (relErrAt .baseTwo f g) w) :
    ∃ v, wcreSymbolicDivision .baseTwo f g e = .ok v ∧ v ≤ w ∧ w < v + 1 / 2 ^ e ∧
      ∃ k : Int, v = k / 2 ^ e := by
  obtain ⟨D, A, F, hp⟩ := prepare .baseTwo f g hf (signOk_baseTwo g) (noWrap_baseTwo f g)
  refine ⟨_, wcreSymbolicDivision_spec hp e (by have := hp.lenD; omega) w hw, ?_, ?_, _, rfl⟩
  · rw [div_le_iff₀ (by positivity)]; exact Int.floor_le _
  · rw [← add_div, lt_div_iff₀ (by positivity)]; exact Int.lt_floor_add_one _

/-- Two's complement numbers without wrapping differences. -/
theorem C44_wcre_symbolic_division_signed (f g : List (BDD m)) (hf : f ≠ []) (hg : g ≠ [])
    (hnw : NoWrap .twosComplement f g) (e : Nat)
    (he : max f.length g.length + 1 + e ≤ 256) (w : ℚ) (hw : IsMax (relErrAt .twosComplement f g) w) :
    ∃ v, wcreSymbolicDivision .twosComplement f g e = .ok v ∧ v ≤ w ∧ w < v + 1 / 2 ^ e ∧
      ∃ k : Int, v = k / 2 ^ e := by
  obtain ⟨D, A, F, hp⟩ := prepare .twosComplement f g hf (fun _ => hg) hnw
  refine ⟨_, wcreSymbolicDivision_spec hp e (by have := hp.lenD; omega) w hw, ?_, ?_, _, rfl⟩
  · rw [div_le_iff₀ (by positivity)]; exact Int.floor_le _
  · rw [← add_div, lt_div_iff₀ (by positivity)]; exact Int.lt_floor_add_one _

/-- 4/3 with three binary digits. -/
example : wcreSymbolicDivision .baseTwo [(BDD.one : BDD .id), .one, .zero] [.one, .one, .var 0] 3 =
    .ok (10 / 8) := by decide +kernel

/-! ## C45 `maximum_relative_value_bounds`, `wcre_bounds` -/

/-- The bounds enclose the maximum of `f/max(1,g)` and differ at most by a factor of two. -/
theorem C45_maximum_relative_value_bounds (f g : List (BDD m)) (hf : f.length ≤ 256) (hg0 : g ≠ [])
    (hg : g.length ≤ 1023) (w : ℚ)
    (hw : IsMax (fun x => (uAt f x : ℚ) / max 1 (uAt g x)) w) :
    ∃ lo hi, maximumRelativeValueBounds f g = .ok (lo, hi) ∧ lo ≤ w ∧ w ≤ hi ∧ hi ≤ 2 * lo := by
  obtain ⟨⟨lo, hi⟩, hv, ⟨⟨x, hx⟩, hlo⟩, ⟨⟨y, hy⟩, hhi⟩⟩ := maximumRelativeValueBounds_spec f g hf hg0 hg
  have hb := fun x => bounds_at (uAt f x) (max 1 (uAt g x)) (by omega)
  refine ⟨lo, hi, hv, ?_, ?_, ?_⟩
  · simp only at hx
    rw [← hx]
    exact le_trans (hb x).1 (hw.2 x)
  · obtain ⟨z, hz⟩ := hw.1
    rw [← hz]
    exact le_trans (hb z).2.1 (hhi z)
  · simp only at hy hlo
    rw [← hy]
    exact le_trans (hb y).2.2 (by linarith [hlo y])

/-- The bounds are the maxima of `f` divided by the largest and by the smallest number with as many
digits as `max(1,g)`. -/
theorem C45_maximum_relative_value_bounds_exact (f g : List (BDD m)) (hf : f.length ≤ 256)
    (hg0 : g ≠ []) (hg : g.length ≤ 1023) :
    ∃ v, maximumRelativeValueBounds f g = .ok v ∧
      IsMax (fun x => (uAt f x : ℚ) / (2 ^ (Nat.log 2 (max 1 (uAt g x)) + 1) - 1)) v.1 ∧
      IsMax (fun x => (uAt f x : ℚ) / 2 ^ Nat.log 2 (max 1 (uAt g x))) v.2 :=
  maximumRelativeValueBounds_spec f g hf hg0 hg

theorem wcreBounds_of_prepared {r : NumRep} {f g D A F : List (BDD m)} (hp : Prepared r f g D A F)
    (hf : f ≠ []) (hfl : max f.length g.length + 1 ≤ 256) (w : ℚ) (hw : IsMax (relErrAt r f g) w) :
    ∃ lo hi, wcreBounds r f g = .ok (lo, hi) ∧ lo ≤ w ∧ w ≤ hi ∧ hi ≤ 2 * lo := by
  have hF : F ≠ [] := by
    intro h
    have := hp.lenF
    rw [h] at this
    exact hf (List.length_eq_zero_iff.mp this.symm)
  obtain ⟨lo, hi, h, hb⟩ := C45_maximum_relative_value_bounds D F (by have := hp.lenD; omega) hF
    (by have := hp.lenF; omega) w (by
      have : ∀ x, (uAt D x : ℚ) / (max 1 (uAt F x) : Nat) = relErrAt r f g x := fun x => by
        rw [max_eq_right (hp.pos x), hp.ratio]
      simpa only [this] using hw)
  exact ⟨lo, hi, by simp only [wcreBounds, hp.diff, hp.abs, hp.maxOne, bind, Except.bind, h], hb⟩

theorem C45_wcre_bounds (f g : List (BDD m)) (hf : f ≠ []) (hfl : f.length ≤ 255)
    (hgl : g.length ≤ 255) (w : ℚ) (hw : IsMax (relErrAt .baseTwo f g) w) :
    ∃ lo hi, wcreBounds .baseTwo f g = .ok (lo, hi) ∧ lo ≤ w ∧ w ≤ hi ∧ hi ≤ 2 * lo := by
  obtain ⟨D, A, F, hp⟩ := prepare .baseTwo f g hf (signOk_baseTwo g) (noWrap_baseTwo f g)
  exact wcreBounds_of_prepared hp hf (by omega) w hw

theorem C45_wcre_bounds_signed_partial (f g : List (BDD m)) (hf : f ≠ []) (hg : g ≠ [])
    (hnw : NoWrap .twosComplement f g) (hfl : f.length ≤ 255)
    (hgl : g.length ≤ 255) (w : ℚ) (hw : IsMax (relErrAt .twosComplement f g) w) :
    ∃ lo hi, wcreBounds .twosComplement f g = .ok (lo, hi) ∧ lo ≤ w ∧ w ≤ hi ∧ hi ≤ 2 * lo := by
  obtain ⟨D, A, F, hp⟩ := prepare .twosComplement f g hf (fun _ => hg) hnw
  exact wcreBounds_of_prepared hp hf (by omega) w hw

/-- A wrapped difference lies outside of the bounds. -/
theorem C45_wcre_bounds_signed_false : ∃ f g : List (BDD Mgr.id), f.length = g.length ∧
    wcreBounds .twosComplement f g = .ok (1, 1) ∧ IsMax (relErrAt .twosComplement f g) 3 :=
  ⟨[.one, .zero], [.zero, .one], rfl, by decide +kernel, signed_witness⟩

example : wcreBounds .baseTwo [(BDD.var 0 : BDD .id), .one, .zero] [.var 0, .one, .one] =
    .ok (4 / 3, 2) := by decide +kernel

/-! ## C46 `average_relative_value`, `acre_bounds` -/

theorem C46_average_relative_value (f g : List (BDD m)) (N : Nat) (hfN : Fits N f) (hgN : Fits N g)
    (hf : f.length + N ≤ 256) (hg0 : g ≠ []) (hg : g.length ≤ 1023) :
    ∃ lo hi, averageRelativeValue f g = .ok (lo, hi) ∧
      lo ≤ mean N (fun x => (uAt f x : ℚ) / max 1 (uAt g x)) ∧
      mean N (fun x => (uAt f x : ℚ) / max 1 (uAt g x)) ≤ hi ∧ hi ≤ 2 * lo := by
  have hb := fun x => bounds_at (uAt f x) (max 1 (uAt g x)) (by omega)
  refine ⟨_, _, averageRelativeValue_spec f g N hfN hgN hf hg0 hg, mean_mono N (fun x => (hb x).1),
    mean_mono N (fun x => (hb x).2.1), ?_⟩
  rw [← mean_mul_left]
  exact mean_mono N (fun x => (hb x).2.2)

/-- The bounds are the means of `f` divided by the largest and by the smallest number with as many
digits as `max(1,g)`. -/
theorem C46_average_relative_value_exact (f g : List (BDD m)) (N : Nat) (hfN : Fits N f)
    (hgN : Fits N g) (hf : f.length + N ≤ 256) (hg0 : g ≠ []) (hg : g.length ≤ 1023) :
    averageRelativeValue f g = .ok
      (mean N (fun x => (uAt f x : ℚ) / (2 ^ (Nat.log 2 (max 1 (uAt g x)) + 1) - 1)),
       mean N (fun x => (uAt f x : ℚ) / 2 ^ Nat.log 2 (max 1 (uAt g x)))) :=
  averageRelativeValue_spec f g N hfN hgN hf hg0 hg

theorem acreBounds_of_prepared {r : NumRep} {f g D A F : List (BDD m)} (hp : Prepared r f g D A F)
    (hf : f ≠ []) (N : Nat) (hfN : Fits N f) (hgN : Fits N g)
    (hfl : max f.length g.length + 1 + N ≤ 256) :
    ∃ lo hi, acreBounds r f g = .ok (lo, hi) ∧ lo ≤ mean N (relErrAt r f g) ∧
      mean N (relErrAt r f g) ≤ hi ∧ hi ≤ 2 * lo := by
  have hA : A ≠ [] := by
    intro h
    have := hp.lenA
    rw [h] at this
    exact hf (List.length_eq_zero_iff.mp this.symm)
  obtain ⟨lo, hi, h, hb⟩ := C46_average_relative_value D A N (hp.fitsD hfN hgN) (hp.fitsA hfN)
    (by have := hp.lenD; omega) hA (by have := hp.lenA; omega)
  have : ∀ x, (uAt D x : ℚ) / (max 1 (uAt A x) : Nat) = relErrAt r f g x := fun x => by
    rw [← hp.ratio, hp.valF]
  simp only [this] at hb
  exact ⟨lo, hi, by simp only [acreBounds, hp.diff, hp.abs, bind, Except.bind, h], hb⟩

theorem C46_acre_bounds (f g : List (BDD m)) (hf : f ≠ []) (N : Nat) (hfN : Fits N f) (hgN : Fits N g)
    (hl : max f.length g.length + 1 + N ≤ 256) :
    ∃ lo hi, acreBounds .baseTwo f g = .ok (lo, hi) ∧ lo ≤ mean N (relErrAt .baseTwo f g) ∧
      mean N (relErrAt .baseTwo f g) ≤ hi ∧ hi ≤ 2 * lo := by
  obtain ⟨D, A, F, hp⟩ := prepare .baseTwo f g hf (signOk_baseTwo g) (noWrap_baseTwo f g)
  exact acreBounds_of_prepared hp hf N hfN hgN hl

theorem C46_acre_bounds_signed_partial (f g : List (BDD m)) (hf : f ≠ []) (hg : g ≠ [])
    (hnw : NoWrap .twosComplement f g) (N : Nat) (hfN : Fits N f) (hgN : Fits N g)
    (hl : max f.length g.length + 1 + N ≤ 256) :
    ∃ lo hi, acreBounds .twosComplement f g = .ok (lo, hi) ∧
      lo ≤ mean N (relErrAt .twosComplement f g) ∧
      mean N (relErrAt .twosComplement f g) ≤ hi ∧ hi ≤ 2 * lo := by
  obtain ⟨D, A, F, hp⟩ := prepare .twosComplement f g hf (fun _ => hg) hnw
  exact acreBounds_of_prepared hp hf N hfN hgN hl

theorem C46_acre_bounds_signed_false : ∃ f g : List (BDD Mgr.id), f.length = g.length ∧
    Fits 0 f ∧ Fits 0 g ∧ acreBounds .twosComplement f g = .ok (1, 1) ∧
    mean 0 (relErrAt .twosComplement f g) = 3 := by
  refine ⟨[.one, .zero], [.zero, .one], rfl, by decide +kernel, by decide +kernel, by decide +kernel, ?_⟩
  have : ∀ x, relErrAt .twosComplement [(BDD.one : BDD .id), .zero] [.zero, .one] x = 3 := by
    intro x
    norm_num [relErrAt, valAt, sAt, tcval, uval, bitsAt]
  rw [mean_congr 0 this, mean_const]

example : acreBounds .baseTwo [(BDD.var 0 : BDD .id), .one, .zero] [.var 0, .one, .one] =
    .ok (4 / 3, 2) ∧ Fits 1 [(BDD.var 0 : BDD .id), .one, .zero] := by decide +kernel

/-! ## C47 `acre_symbolic_division` (`acre_add` is in `Props/Add.lean`) -/

theorem C47_acre_symbolic_division (f g : List (BDD m)) (hf : f ≠ []) (e N : Nat) (hfN : Fits N f)
    (hgN : Fits N g) (hl : max f.length g.length + 3 + e + N ≤ 256) :
    ∃ v, acreSymbolicDivision .baseTwo f g e = .ok v ∧ v ≤ mean N (relErrAt .baseTwo f g) ∧
      mean N (relErrAt .baseTwo f g) < v + 1 / 2 ^ e := by
  obtain ⟨D, A, F, hp⟩ := prepare .baseTwo f g hf (signOk_baseTwo g) (noWrap_baseTwo f g)
  exact ⟨_, acreSymbolicDivision_spec hp e N hfN hgN (by have := hp.lenD; omega),
    acreSym_bounds N e _⟩

/-- The digits cut off are those of every single relative error. -/
theorem C47_acre_symbolic_division_exact (f g : List (BDD m)) (hf : f ≠ []) (e N : Nat)
    (hfN : Fits N f) (hgN : Fits N g) (hl : max f.length g.length + 3 + e + N ≤ 256) :
    acreSymbolicDivision .baseTwo f g e =
      .ok (mean N (fun x => (⌊relErrAt .baseTwo f g x * 2 ^ e⌋ : ℚ) / 2 ^ e)) := by
  obtain ⟨D, A, F, hp⟩ := prepare .baseTwo f g hf (signOk_baseTwo g) (noWrap_baseTwo f g)
  rw [acreSymbolicDivision_spec hp e N hfN hgN (by have := hp.lenD; omega)]
  apply congrArg Except.ok
  rw [div_eq_mul_inv, ← mean_mul_right]
  rfl

theorem C47_acre_symbolic_division_signed_partial (f g : List (BDD m)) (hf : f ≠ []) (hg : g ≠ [])
    (hnw : NoWrap .twosComplement f g) (e N : Nat) (hfN : Fits N f)
    (hgN : Fits N g) (hl : max f.length g.length + 3 + e + N ≤ 256) :
    ∃ v, acreSymbolicDivision .twosComplement f g e = .ok v ∧
      v ≤ mean N (relErrAt .twosComplement f g) ∧
      mean N (relErrAt .twosComplement f g) < v + 1 / 2 ^ e := by
  obtain ⟨D, A, F, hp⟩ := prepare .twosComplement f g hf (fun _ => hg) hnw
  exact ⟨_, acreSymbolicDivision_spec hp e N hfN hgN (by have := hp.lenD; omega),
    acreSym_bounds N e _⟩

/-- A wrapped difference: `acre_symbolic_division` gives 1, the average relative error is 3. -/
theorem C47_acre_symbolic_division_signed_false : ∃ f g : List (BDD Mgr.id), f.length = g.length ∧
    Fits 0 f ∧ Fits 0 g ∧ acreSymbolicDivision .twosComplement f g 2 = .ok 1 ∧
    mean 0 (relErrAt .twosComplement f g) = 3 := by
  refine ⟨[.one, .zero], [.zero, .one], rfl, by decide +kernel, by decide +kernel, by decide +kernel, ?_⟩
  have : ∀ x, relErrAt .twosComplement [(BDD.one : BDD .id), .zero] [.zero, .one] x = 3 := by
    intro x
    norm_num [relErrAt, valAt, sAt, tcval, uval, bitsAt]
  rw [mean_congr 0 this, mean_const]

/-- The mean of 4/3 (cut off to 10/8) and 0. -/
example : acreSymbolicDivision .baseTwo [(BDD.one : BDD .id), .one, .zero] [.one, .one, .var 0] 3 =
    .ok (5 / 8) := by decide +kernel

end Verif

import Verif.Proofs.AbsDiff
import Verif.Proofs.MulFrac

/-!
# C01 – C13: arithmetic on vectors of BDDs

`uAt f x` is the unsigned value and `sAt f x` the two's complement value of the vector `f` at
the input `x` (`Verif/Spec.lean`).
-/

namespace Verif

variable {m : Mgr}

/-! ## C01 `bdd_add` -/

theorem C01_bdd_add (f g : List (BDD m)) (h : f.length ≤ g.length) :
    ∃ r, bddAdd f g = .ok r ∧ r.length = f.length ∧
      ∀ x, uAt r x = (uAt f x + uAt g x) % 2 ^ f.length :=
  bddAdd_spec f g h

theorem C01_bdd_add_ub (f g : List (BDD m)) (h : g.length < f.length) :
    bddAdd f g = .error .ub :=
  addLoop_ub f g .zero h

/-- 2 bits plus 3 bits, real functions. -/
example : ∃ r, bddAdd [(BDD.var 0 : BDD m), .var 1] [.var 1, .var 2, .one] = .ok r ∧ r.length = 2 ∧
    ∀ x, uAt r x = (uAt [(BDD.var 0 : BDD m), .var 1] x +
      uAt [(BDD.var 1 : BDD m), .var 2, .one] x) % 2 ^ 2 :=
  C01_bdd_add _ _ (by simp)

/-! ## C02 `bdd_subtract` -/

theorem C02_bdd_subtract (f g : List (BDD m)) (h : f.length ≤ g.length) :
    ∃ r, bddSubtract f g = .ok r ∧ r.length = f.length ∧
      ∀ x, (uAt r x : Int) = ((uAt f x : Int) - uAt g x) % 2 ^ f.length :=
  bddSubtract_spec f g h

theorem C02_bdd_subtract_ub (f g : List (BDD m)) (h : g.length < f.length) :
    bddSubtract f g = .error .ub :=
  bddSubtract_ub f g h

example : ∃ r, bddSubtract [(BDD.var 0 : BDD m), .var 1] [.var 1, .var 2] = .ok r ∧ r.length = 2 ∧
    ∀ x, (uAt r x : Int) = ((uAt [(BDD.var 0 : BDD m), .var 1] x : Int) -
      uAt [(BDD.var 1 : BDD m), .var 2] x) % 2 ^ 2 :=
  C02_bdd_subtract _ _ (by simp)

/-! ## C03 `bdd_absolute_difference`, unsigned -/

theorem C03_absolute_difference_unsigned (f g : List (BDD m)) :
    ∃ d, bddAbsoluteDifference .baseTwo f g = .ok d ∧ d.length = max f.length g.length + 1 ∧
      ∀ x, (uAt d x : Int) = |(uAt f x : Int) - uAt g x| := by
  obtain ⟨d, hd, hl, hv⟩ := bddAbsoluteDifference_core .baseTwo f g (f ++ [.zero]) (g ++ [.zero])
    rfl rfl (by simp) (by simp)
  refine ⟨d, hd, by simp at hl; omega, fun x => ?_⟩
  rw [hv x, sAt_append_zero, sAt_append_zero]
  have hf : (uAt f x : Int) < 2 ^ f.length := by exact_mod_cast uAt_lt f x
  have hg : (uAt g x : Int) < 2 ^ g.length := by exact_mod_cast uAt_lt g x
  have e : (max (f ++ [BDD.zero]).length (g ++ [BDD.zero]).length) = max f.length g.length + 1 := by
    simp
  rw [e, pow_succ]
  have h1 : (2 : Int) ^ f.length ≤ 2 ^ max f.length g.length :=
    pow_le_pow_right₀ (by norm_num) (le_max_left _ _)
  have h2 : (2 : Int) ^ g.length ≤ 2 ^ max f.length g.length :=
    pow_le_pow_right₀ (by norm_num) (le_max_right _ _)
  rw [if_pos]
  rcases abs_cases ((uAt f x : Int) - uAt g x) with h | h <;> omega

/-- Functions of different length. -/
example : ∃ d, bddAbsoluteDifference .baseTwo [(BDD.var 0 : BDD m), .var 1, .var 2] [.var 1] = .ok d ∧
    d.length = 4 ∧ ∀ x, (uAt d x : Int) =
      |(uAt [(BDD.var 0 : BDD m), .var 1, .var 2] x : Int) - uAt [(BDD.var 1 : BDD m)] x| :=
  C03_absolute_difference_unsigned _ _

/-! ## C04 `bdd_absolute_difference`, two's complement

The full claim `∀ f g x, value = |f(x) - g(x)|` is false: the code computes in the width of the
operands and reads the wrapped difference as a signed number. -/

/-- What the code does compute: the distance on the number circle of the common width. -/
theorem C04_absolute_difference_signed_wraps (f g : List (BDD m)) (hf : f ≠ []) (hg : g ≠ []) :
    ∃ d, bddAbsoluteDifference .twosComplement f g = .ok d ∧ d.length = max f.length g.length ∧
      ∀ x, (uAt d x : Int) = min |sAt f x - sAt g x|
        (2 ^ max f.length g.length - |sAt f x - sAt g x|) := by
  obtain ⟨d, hd, hl, hv⟩ := bddAbsoluteDifference_core .twosComplement f g f g rfl rfl hf hg
  refine ⟨d, hd, hl, fun x => ?_⟩
  rw [hv x]
  split <;> omega

/-- Exact exactly where the difference is at most half of the number range. -/
theorem C04_absolute_difference_signed_partial (f g : List (BDD m)) (hf : f ≠ []) (hg : g ≠ []) :
    ∃ d, bddAbsoluteDifference .twosComplement f g = .ok d ∧
      ∀ x, ((uAt d x : Int) = |sAt f x - sAt g x| ↔
        2 * |sAt f x - sAt g x| ≤ 2 ^ max f.length g.length) := by
  obtain ⟨d, hd, _, hv⟩ := C04_absolute_difference_signed_wraps f g hf hg
  refine ⟨d, hd, fun x => ?_⟩
  rw [hv x]
  omega

/-- An empty operand in two's complement: `back()` of an empty vector as soon as the other operand
is longer. -/
theorem C04_absolute_difference_signed_empty (f g : List (BDD m)) (h : f = [] ∨ g = []) :
    bddAbsoluteDifference .twosComplement f g = .error .ub := by
  rcases h with rfl | rfl
  · cases g with
    | nil => rfl
    | cons b g => simp [bddAbsoluteDifference, withSignBit, signExtend, vback, bind, Except.bind]
  · cases f with
    | nil => rfl
    | cons b g => simp [bddAbsoluteDifference, withSignBit, signExtend, vback, bind, Except.bind]

/-- Counterexample: the two-bit constants 1 and -2 have difference 3, the code returns 1. -/
theorem C04_absolute_difference_signed_false : ∃ (f g d : List (BDD m)) (x : Asg),
    f.length = g.length ∧ bddAbsoluteDifference .twosComplement f g = .ok d ∧
    |sAt f x - sAt g x| = 3 ∧ uAt d x = 1 := by
  obtain ⟨d, hd, _, hv⟩ := C04_absolute_difference_signed_wraps
    [(BDD.one : BDD m), .zero] [(BDD.zero : BDD m), .one] (by simp) (by simp)
  refine ⟨[(BDD.one : BDD m), .zero], [(BDD.zero : BDD m), .one], d, fun _ => false, rfl, hd,
    by simp [sAt, tcval, uval], ?_⟩
  have := hv (fun _ => false)
  simp [sAt, tcval, uval] at this
  exact_mod_cast this

/-! ## C05 `bdd_abs` -/

theorem C05_bdd_abs (f : List (BDD m)) :
    bddAbs .baseTwo f = .ok f ∧
    (f ≠ [] → ∃ r, bddAbs .twosComplement f = .ok r ∧ r.length = f.length ∧
      ∀ x, (uAt r x : Int) = |sAt f x|) ∧
    (f = [] → bddAbs .twosComplement f = .error .ub) :=
  ⟨rfl, bddAbs_spec f, fun h => by subst h; rfl⟩

/-- The most negative number of 2 bits is covered. -/
example : ∃ r, bddAbs .twosComplement [(BDD.zero : BDD m), .one] = .ok r ∧
    uAt r (fun _ => false) = 2 := by
  obtain ⟨r, hr, _, hv⟩ := (C05_bdd_abs [(BDD.zero : BDD m), .one]).2.1 (by simp)
  refine ⟨r, hr, ?_⟩
  have := hv (fun _ => false)
  simp [sAt, tcval, uval] at this
  exact_mod_cast this

/-! ## C06 `bdd_shift` -/

theorem C06_bdd_shift (f : List (BDD m)) (k : Int) :
    ∃ r, bddShift f k = .ok r ∧ r.length = f.length ∧
      ∀ x, uAt r x = if 0 ≤ k then (uAt f x * 2 ^ k.toNat) % 2 ^ f.length
        else uAt f x / 2 ^ (-k).toNat := by
  refine ⟨_, bddShift_ok f k, shiftPure_length f k, fun x => ?_⟩
  split
  · rename_i h
    have e : k = (k.toNat : Int) := by omega
    conv_lhs => rw [e]
    exact uAt_shift_left f _ x
  · rename_i h
    have e : k = -((-k).toNat : Int) := by omega
    conv_lhs => rw [e]
    exact uAt_shift_right f _ x

example : ∃ r, bddShift [(BDD.var 0 : BDD m), .var 1, .var 2] (-1) = .ok r ∧ r.length = 3 ∧
    ∀ x, uAt r x = uAt [(BDD.var 0 : BDD m), .var 1, .var 2] x / 2 ^ 1 := by
  simpa using C06_bdd_shift [(BDD.var 0 : BDD m), .var 1, .var 2] (-1)

/-! ## C07 `bdd_multiply_constant` with an integer factor -/

theorem C07_multiply_constant (f : List (BDD m)) (factor : Nat) (h : factor < 2 ^ 256) :
    ∃ r, bddMultiplyConstant f factor = .ok r ∧ ∀ x, uAt r x = uAt f x * factor := by
  obtain ⟨r, hr, _, hv⟩ := bddMultiplyConstantLg_spec f factor (Nat.clog 2 factor) h
    (le_trans (Nat.le_pow_clog (by norm_num) factor) (Nat.pow_le_pow_right (by norm_num) (by omega)))
  exact ⟨r, hr, hv⟩

/-- The claim does not depend on an exact logarithm: an underestimate by one is enough, which covers
the rounding of `log2(double(factor))`. -/
theorem C07_multiply_constant_rounding (f : List (BDD m)) (factor lg : Nat) (h : factor < 2 ^ 256)
    (hlg : Nat.clog 2 factor ≤ lg + 1) :
    ∃ r, bddMultiplyConstantLg f factor lg = .ok r ∧ r.length = f.length + lg + 2 ∧
      ∀ x, uAt r x = uAt f x * factor :=
  bddMultiplyConstantLg_spec f factor lg h
    (le_trans (Nat.le_pow_clog (by norm_num) factor) (Nat.pow_le_pow_right (by norm_num) hlg))

example : ∃ r, bddMultiplyConstant [(BDD.var 0 : BDD m), .var 1] 10 = .ok r ∧
    ∀ x, uAt r x = uAt [(BDD.var 0 : BDD m), .var 1] x * 10 :=
  C07_multiply_constant _ 10 (by norm_num)

/-! ## C08 `bdd_multiply_constant` with a fractional factor -/

/-- For factors above one half the result is at most the exact product, smaller by at most
`f(x)/2^e + e`, and exact for representable products. -/
theorem C08_multiply_fraction_partial (f : List (BDD m)) (factor : ℚ) (e : Nat)
    (h1 : 1 / 2 < factor) (h2 : factor < 2 ^ 256) (he : e < 64) :
    ∃ r, bddMultiplyConstantQ f factor e = .ok r ∧
      ∀ x, (uAt r x : ℚ) ≤ uAt f x * factor ∧
        (uAt f x : ℚ) * factor ≤ uAt r x + uAt f x / 2 ^ e + e ∧
        (2 ^ e ∣ uAt f x → (∃ k : ℤ, factor * 2 ^ e = k) → (uAt r x : ℚ) = uAt f x * factor) := by
  obtain ⟨r, hr, _, hv⟩ := bddMultiplyConstantQ_spec f factor e h1 h2 he
  exact ⟨r, hr, hv⟩

/-- What is missing: for factors of at most one half the conversion of the negative logarithm to
`size_t` is undefined behaviour, for every function. -/
theorem C08_multiply_fraction_small_factor_ub (f : List (BDD m)) (factor : ℚ) (e : Nat)
    (h : factor ≤ 1 / 2) : bddMultiplyConstantQ f factor e = .error .ub := by
  rw [bddMultiplyConstantQ, if_pos h]

example : ∃ r, bddMultiplyConstantQ [(BDD.zero : BDD m), .zero, .var 0, .var 1] (5 / 4) 2 = .ok r ∧
    ∀ x, (uAt r x : ℚ) = uAt [(BDD.zero : BDD m), .zero, .var 0, .var 1] x * (5 / 4) := by
  obtain ⟨r, hr, hv⟩ := C08_multiply_fraction_partial
    [(BDD.zero : BDD m), .zero, .var 0, .var 1] (5 / 4) 2 (by norm_num) (by norm_num) (by norm_num)
  refine ⟨r, hr, fun x => (hv x).2.2 ?_ ⟨5, by norm_num⟩⟩
  simp only [uAt_cons, BDD.eval_zero, Bool.toNat_false, uAt_nil]
  omega

/-! ## C09 `exists_greater_equals` -/

theorem C09_exists_greater_equals (f1 f2 : List (BDD m)) :
    ((existsGreaterEquals f1 f2).1 = true ↔ ∃ x, uAt f1 x ≥ uAt f2 x) ∧
    ((existsGreaterEquals f1 f2).2 = true ↔
      (∃ x, uAt f1 x = uAt f2 x) ∧ ¬ ∃ x, uAt f1 x > uAt f2 x) := by
  rcases existsGreaterEquals_cases f1 f2 with ⟨⟨x, hx⟩, h⟩ | ⟨hle, ⟨⟨x, hx⟩, h⟩ | ⟨hx, h⟩⟩
  · rw [h]
    exact ⟨⟨fun _ => ⟨x, hx.le⟩, fun _ => rfl⟩, ⟨fun h => by simp at h, fun h => absurd ⟨x, hx⟩ h.2⟩⟩
  · rw [h]
    refine ⟨⟨fun _ => ⟨x, hx.ge⟩, fun _ => rfl⟩, ⟨fun _ => ⟨⟨x, hx⟩, ?_⟩, fun _ => rfl⟩⟩
    rintro ⟨y, hy⟩
    exact absurd (hle y) (not_le.mpr hy)
  · rw [h]
    refine ⟨⟨fun h => by simp at h, ?_⟩, ⟨fun h => by simp at h, fun h => absurd h.1 hx⟩⟩
    rintro ⟨y, hy⟩
    exact absurd ⟨y, le_antisymm (hle y) hy⟩ hx

/-- Both outcomes occur. -/
example : existsGreaterEquals [(BDD.var 0 : BDD .id)] [.var 1] = (true, false) ∧
    existsGreaterEquals [(BDD.var 0 : BDD .id)] [.one] = (true, true) ∧
    existsGreaterEquals [(BDD.var 0 : BDD .id)] [.zero, .one] = (false, false) := by decide +kernel

/-! ## C10 `greater_equals`, `greater_than` -/

theorem C10_comparisons (f g : List (BDD m)) (x : Asg) :
    ((greaterEquals f g).eval x = true ↔ uAt f x ≥ uAt g x) ∧
    ((greaterThan f g).eval x = true ↔ uAt f x > uAt g x) := by
  rw [greaterEquals_eval, greaterThan_eval]
  simp

example : (greaterThan [(BDD.var 0 : BDD .id), .var 1] [.one]) = .var 1 := by decide +kernel

/-! ## C11 `bdd_max_one` -/

theorem C11_max_one (f : List (BDD m)) :
    (f ≠ [] → ∃ r, bddMaxOne f = .ok r ∧ r.length = f.length ∧ ∀ x, uAt r x = max 1 (uAt f x)) ∧
    (f = [] → bddMaxOne f = .error .ub) :=
  ⟨bddMaxOne_spec f, fun h => by subst h; rfl⟩

example : ∃ r, bddMaxOne [(BDD.var 0 : BDD m), .var 1] = .ok r ∧ r.length = 2 ∧
    ∀ x, uAt r x = max 1 (uAt [(BDD.var 0 : BDD m), .var 1] x) :=
  (C11_max_one _).1 (by simp)

/-! ## C12 `bdd_divide` -/

theorem C12_divide (f g : List (BDD m)) (e : Nat) :
    ∃ r, bddDivide f g e = .ok r ∧ r.length = f.length + 2 + e ∧
      ∀ x, (0 < uAt g x → uAt r x = uAt f x * 2 ^ e / uAt g x) ∧
        (uAt g x = 0 → uAt r x = 2 ^ (f.length + 2 + e) - 1) := by
  set g' := List.replicate e BDD.zero ++ (g ++ List.replicate (f.length + 1) (BDD.zero : BDD m))
    with hg'
  have hG : ∀ x, uAt g' x = uAt g x * 2 ^ e := fun x => by
    simp [hg', uAt_append, Nat.mul_comm]
  have hK : ∀ x k, k < f.length + 2 + e → uAt g x * 2 ^ k < 2 ^ g'.length := fun x k hk => by
    calc uAt g x * 2 ^ k < 2 ^ g.length * 2 ^ k :=
          Nat.mul_lt_mul_of_pos_right (uAt_lt g x) (by positivity)
      _ ≤ 2 ^ g'.length := by
          rw [← pow_add]
          refine Nat.pow_le_pow_right (by norm_num) ?_
          simp [hg']; omega
  obtain ⟨r, hr, hl, hv⟩ := divLoop_spec g' e (fun x => uAt g x) (f.length + 2 + e) hG hK
    (f.length + 2 + e) (List.replicate e .zero ++ f) le_rfl
  have ht : ∀ x, uAt (List.replicate e (BDD.zero : BDD m) ++ f) x = uAt f x * 2 ^ e := fun x => by
    simp [uAt_append, Nat.mul_comm]
  refine ⟨r.reverse, ?_, by simp [hl], fun x => ?_⟩
  · simp only [bddDivide, ← hg', hr, bind, Except.bind]
  · obtain ⟨h1, h2⟩ := hv x
    rw [ht] at h1
    refine ⟨fun hpos => h1 hpos ?_, fun h0 => by have := h2 h0; omega⟩
    calc uAt f x * 2 ^ e < 2 ^ f.length * 2 ^ e :=
          Nat.mul_lt_mul_of_pos_right (uAt_lt f x) (by positivity)
      _ ≤ 1 * 2 ^ (f.length + 2 + e) := by
          rw [← pow_add, Nat.one_mul]; exact Nat.pow_le_pow_right (by norm_num) (by omega)
      _ ≤ uAt g x * 2 ^ (f.length + 2 + e) := Nat.mul_le_mul_right _ hpos

/-- A divisor that is zero for some inputs and positive for others. -/
example : ∃ r, bddDivide [(BDD.var 0 : BDD m), .var 1] [.var 2, .zero] 3 = .ok r ∧ r.length = 7 ∧
    ∀ x, (0 < uAt [(BDD.var 2 : BDD m), .zero] x → uAt r x =
        uAt [(BDD.var 0 : BDD m), .var 1] x * 2 ^ 3 / uAt [(BDD.var 2 : BDD m), .zero] x) ∧
      (uAt [(BDD.var 2 : BDD m), .zero] x = 0 → uAt r x = 2 ^ 7 - 1) :=
  C12_divide _ _ 3

/-! ## C13 `number_to_bdds` -/

theorem C13_number_to_bdds (n : Nat) (h : n < 2 ^ 256) :
    (∀ x, uAt (numberToBdds n : List (BDD m)) x = n) ∧
    1 ≤ (numberToBdds n : List (BDD m)).length ∧
    (1 < (numberToBdds n : List (BDD m)).length →
      2 ^ ((numberToBdds n : List (BDD m)).length - 1) ≤ n) := by
  set l := ((List.range 256).map fun i => if n.testBit i then (BDD.one : BDD m) else .zero).reverse
    with hl
  have hne : l ≠ [] := by
    intro h
    have := congrArg List.length h
    rw [hl, List.length_reverse, List.length_map, List.length_range] at this
    simp at this
  obtain ⟨h1, h2, h3⟩ := popZeros_spec l hne
  have hv : ∀ x, uAt (popZeros l).reverse x = n := fun x => by
    rw [h2, hl, List.reverse_reverse, uAt_const_bits, Nat.mod_eq_of_lt h]
  have heq : (numberToBdds n : List (BDD m)) = (popZeros l).reverse := rfl
  rw [heq]
  refine ⟨hv, ?_, fun hlen => ?_⟩
  · rw [List.length_reverse]
    exact List.length_pos_iff.mpr h1
  · rw [List.length_reverse] at hlen ⊢
    cases hp : popZeros l with
    | nil => exact absurd hp h1
    | cons b bs =>
      have hz := h3 hlen b (by rw [hp]; rfl)
      obtain ⟨x, hx⟩ := BDD.isZero_false_iff.mp hz
      have := hv x
      rw [hp, List.reverse_cons, uAt_append] at this
      simp only [uAt_cons, uAt_nil, hx, List.length_reverse, Bool.toNat_true] at this
      simp only [List.length_cons, Nat.add_sub_cancel]
      omega

example : (numberToBdds 6 : List (BDD .id)) = [.zero, .one, .one] ∧
    (numberToBdds 0 : List (BDD .id)) = [.zero] := by decide +kernel

end Verif

import Verif.Proofs.AddErrors
import Verif.Props.Average
import Verif.Props.WorstCase

/-!
# C21 – C23, C28, C34, C36, C39, C40, C41, C47, C71: metrics computed on ADDs
-/

namespace Verif

variable {m : Mgr}

/-! ## C21 `add_terminal_values` -/

/-- `k` is the last variable the ADD depends on; the inputs are those of the variables `0 … k`. -/
theorem C21_terminal_values (hm : m.Mono) (a : ADD m) (k : Nat) (hk : k < 64)
    (hdep : ∃ x, a.eval (Function.update x k true) ≠ a.eval (Function.update x k false))
    (hlast : ∀ x y : Asg, (∀ v, v ≤ k → x v = y v) → a.eval x = a.eval y) :
    ∃ l, addTerminalValues a = .ok l ∧ (l.map Prod.fst).Nodup ∧
      (∀ q, q ∈ l.map Prod.fst ↔ ∃ x, a.eval x = q) ∧
      (∀ p ∈ l, p.2 = count (k + 1) (fun x => decide (a.eval x = p.1))) ∧
      (l.map Prod.snd).sum = 2 ^ (k + 1) := by
  have hv := ADD.vars_lt (a := a) (N := k + 1) (fun x y h => hlast x y (fun v hv => h v (by omega)))
  have hkm : k ∈ a.d.vars := by
    obtain ⟨x, hx⟩ := hdep
    by_contra hc
    apply hx
    apply AD.eval_congr
    intro v hvm
    have : v ≠ k := fun h => hc (h ▸ hvm)
    simp [Function.update, this]
  have hL : termLevel a = k + 1 := by
    have h1 := termLevel_le hv
    have h2 := lt_termLevel a k hkm
    omega
  have hroot : ∃ v t e, a.d = .node v t e := by
    cases h : a.d with
    | const q => rw [h] at hkm; simp [AD.vars] at hkm
    | node v t e => exact ⟨v, t, e, rfl⟩
  obtain ⟨l, hl, h1, h2, h3⟩ := addTerminalValues_spec a
    (AD.ord_of_mono hm a.wf (lt_termLevel a)).ord0 (by omega) hroot
  rw [hL] at h3
  refine ⟨l, hl, h1, h2, h3, ?_⟩
  have hsum : (((l.map Prod.snd).sum : Nat) : ℚ) = 2 ^ (k + 1) := by
    rw [Nat.cast_list_sum, List.map_map]
    have e : l.map (Nat.cast ∘ Prod.snd) = l.map (fun p => 2 ^ (k + 1) *
        mean (k + 1) (fun x => ind (decide (a.eval x = p.1)))) := by
      apply List.map_congr_left
      intro p hp
      rw [mean_ind_count, mul_div_cancel₀ _ (by positivity)]
      simp [h3 p hp]
    rw [e, List.sum_map_mul_left, mean_sum_list]
    rw [mean_congr (k + 1) (h := fun _ => 1) (fun x => by
      have := sum_single (fun _ => 1) (a.eval x) l h1 ((h2 _).mpr ⟨x, rfl⟩)
      simpa using this), mean_const, mul_one]
  exact_mod_cast hsum

/-- A constant ADD: one pair with count 1. -/
theorem C21_terminal_values_constant (a : ADD m) (q : ℚ) (h : ∀ x, a.eval x = q) :
    addTerminalValues a = .ok [(q, 1)] :=
  addTerminalValues_const a (AD.eq_of_eval a.d (.const q) a.wf trivial h)

example : addTerminalValues ((ADD.ofBDD (BDD.var 0 : BDD .id)).add (.ofBDD (.var 2))) =
    .ok [(0, 2), (1, 4), (2, 2)] := by decide +kernel

/-! ## C22 `bdd_forest_to_add` -/

theorem C22_forest_to_add (r : NumRep) (f : List (BDD m)) (h : SignOk r f) :
    ∃ a, bddForestToAdd r f = .ok a ∧ ∀ x, a.eval x = (valAt r f x : ℚ) :=
  bddForestToAdd_spec r f h

theorem C22_forest_to_add_empty :
    bddForestToAdd .twosComplement ([] : List (BDD m)) = .error .ub ∧
    ∃ a : ADD m, bddForestToAdd .baseTwo [] = .ok a ∧ ∀ x, a.eval x = 0 := by
  refine ⟨rfl, ?_⟩
  obtain ⟨a, ha, h⟩ := bddForestToAdd_spec .baseTwo ([] : List (BDD m)) (by simp)
  exact ⟨a, ha, fun x => by rw [h]; simp [valAt]⟩

example : (bddForestToAdd .twosComplement [(BDD.var 0 : BDD .id), .var 1]).map
    (fun a => (a.eval (fun _ => true), a.eval (fun v => v = 1))) = .ok (-1, -2) := by decide +kernel

/-! ## C23 difference ADDs -/

theorem C23_absolute_difference_add (r : NumRep) (f g : List (BDD m)) (hf : SignOk r f)
    (hg : SignOk r g) : ∃ a, absoluteDifferenceAdd r f g = .ok a ∧
      ∀ x, a.eval x = ((|valAt r f x - valAt r g x| : Int) : ℚ) :=
  absoluteDifferenceAdd_spec r f g hf hg

/-- The bits of a longer second vector are ignored; a shorter one is undefined behaviour. -/
theorem C23_xor_difference_add (f g : List (BDD m)) :
    (f.length ≤ g.length → ∃ a, xorDifferenceAdd f g = .ok a ∧
      ∀ x, a.eval x = (uval (List.zipWith Bool.xor (bitsAt f x) (bitsAt g x)) : ℚ)) ∧
    (g.length < f.length → xorDifferenceAdd f g = .error .ub) :=
  ⟨xorDifferenceAdd_spec f g, fun h => by rw [xorDifferenceAdd, if_pos h]⟩

example : (absoluteDifferenceAdd .twosComplement [(BDD.one : BDD .id), .zero] [.zero, .one]).map
    (fun a => a.eval (fun _ => true)) = .ok 3 := by decide +kernel

example : (xorDifferenceAdd [(BDD.var 0 : BDD .id), .zero] [.zero, .one]).map
    (fun a => a.eval (fun _ => true)) = .ok 3 := by decide +kernel

/-! ## C28 `worst_case_error_add` -/

theorem C28_worst_case_error_add (hm : m.Mono) (r : NumRep) (f g : List (BDD m)) (hf : SignOk r f)
    (hg : SignOk r g) (hlen : max f.length g.length ≤ 256) (N : Nat) (hfN : Fits N f) (hgN : Fits N g)
    (hN : N ≤ 64) :
    ∃ v : Nat, worstCaseErrorAdd r f g = .ok v ∧ IsMax (fun x => |valAt r f x - valAt r g x|) (v : Int) := by
  obtain ⟨v, hv⟩ := worstCaseErrorAdd_ok hm r f g hf hg hfN hgN hN
  exact ⟨v, hv, worstCaseErrorAdd_spec r f g hf hg hlen hv⟩

/-- Agreement with `worst_case_error` for unsigned numbers. -/
theorem C28_agrees_with_worst_case_error (hm : m.Mono) (f g : List (BDD m))
    (hlen : max f.length g.length + 1 ≤ 256) (N : Nat) (hfN : Fits N f) (hgN : Fits N g) (hN : N ≤ 64) :
    worstCaseErrorAdd .baseTwo f g = worstCaseError .baseTwo f g := by
  obtain ⟨v, hv, ⟨x, hx⟩, hup⟩ := C28_worst_case_error_add hm .baseTwo f g (by simp [SignOk])
    (by simp [SignOk]) (by omega) N hfN hgN hN
  obtain ⟨w, hw, ⟨y, hy⟩, hup'⟩ := C25_worst_case_error_unsigned f g (by omega) (by omega)
  rw [hv, hw]
  apply congrArg Except.ok
  have h1 := hup y
  have h2 := hup' x
  simp only [valAt] at hx h1 hy h2
  omega

/-- Disagreement for signed numbers: the constants 1 and -2. -/
theorem C28_disagrees_signed : ∃ f g : List (BDD Mgr.id), f.length = g.length ∧
    worstCaseErrorAdd .twosComplement f g = .ok 3 ∧ worstCaseError .twosComplement f g = .ok 1 := by
  refine ⟨[.one, .zero], [.zero, .one], rfl, by decide +kernel, by decide +kernel⟩

example : worstCaseErrorAdd .baseTwo [(BDD.var 0 : BDD .id), .var 1] [.var 1] = .ok 2 ∧
    Fits 2 [(BDD.var 0 : BDD .id), .var 1] ∧ Fits 2 [(BDD.var 1 : BDD .id)] := by decide +kernel

example : Mgr.id.Mono := fun _ _ h => h

/-! ## C34 `average_case_error_add`, `mean_squared_error_add` -/

theorem C34_average_case_error_add (hm : m.Mono) (r : NumRep) (f g : List (BDD m)) (hf : SignOk r f)
    (hg : SignOk r g) (N : Nat) (hfN : Fits N f) (hgN : Fits N g) (hN : N ≤ 64)
    (hlen : max f.length g.length + N ≤ 256) :
    averageCaseErrorAdd r f g = .ok (mean N (fun x => ((|valAt r f x - valAt r g x| : Int) : ℚ))) := by
  obtain ⟨a, ha, ea⟩ := absoluteDifferenceAdd_spec r f g hf hg
  obtain ⟨l, hl⟩ := addTerminalValues_ok hm a (absDiff_vars hfN hgN ea) hN
  exact averageCaseErrorAdd_spec r f g hf hg hfN hgN hN hlen ha hl

theorem C34_mean_squared_error_add (hm : m.Mono) (r : NumRep) (f g : List (BDD m)) (hf : SignOk r f)
    (hg : SignOk r g) (N : Nat) (hfN : Fits N f) (hgN : Fits N g) (hN : N ≤ 64)
    (hlen : 2 * max f.length g.length + N ≤ 256) :
    meanSquaredErrorAdd r f g = .ok (mean N (fun x => ((valAt r f x - valAt r g x : Int) : ℚ) ^ 2)) := by
  obtain ⟨a, ha, ea⟩ := absoluteDifferenceAdd_spec r f g hf hg
  obtain ⟨l, hl⟩ := addTerminalValues_ok hm a (absDiff_vars hfN hgN ea) hN
  exact meanSquaredErrorAdd_spec r f g hf hg hfN hgN hN hlen ha hl

/-- Agreement with the BDD variant for unsigned numbers. -/
theorem C34_average_agrees (hm : m.Mono) (f g : List (BDD m)) (N : Nat) (hfN : Fits N f)
    (hgN : Fits N g) (hN : N ≤ 64) (hlen : max f.length g.length + 1 + N ≤ 256) :
    averageCaseErrorAdd .baseTwo f g = averageCaseError .baseTwo f g := by
  rw [C34_average_case_error_add hm .baseTwo f g (by simp [SignOk]) (by simp [SignOk]) N hfN hgN hN
    (by omega), C33_average_case_error f g N hfN hgN hlen]
  rfl

/-- The mean squared errors do not agree: the BDD variant truncates (C32), the ADD variant is exact. -/
theorem C34_mean_squared_agrees_false : ∃ f g : List (BDD Mgr.id), f.length = g.length ∧
    meanSquaredErrorAdd .baseTwo f g = .ok (7 / 2) ∧ meanSquaredError .baseTwo f g = .ok (5 / 2) := by
  refine ⟨[.var 0, .var 1], [.zero, .zero], rfl, by decide +kernel, by decide +kernel⟩

/-- What remains of the agreement: the BDD variant never exceeds the ADD variant and is at least a third of it. -/
theorem C34_mean_squared_agrees_partial (hm : m.Mono) (f g : List (BDD m)) (N : Nat) (hfN : Fits N f)
    (hgN : Fits N g) (hN : N ≤ 64) (hlen : 2 * (max f.length g.length + 1) + N ≤ 256) :
    ∃ p q, meanSquaredError .baseTwo f g = .ok p ∧ meanSquaredErrorAdd .baseTwo f g = .ok q ∧ p ≤ q ∧
      q ≤ 3 * p := by
  obtain ⟨p, hp, hle, hge, _⟩ := C33_mean_squared_error_partial f g N hfN hgN hlen
  exact ⟨p, _, hp, C34_mean_squared_error_add hm .baseTwo f g (by simp [SignOk]) (by simp [SignOk]) N
    hfN hgN hN (by omega), hle, hge⟩

example : averageCaseErrorAdd .twosComplement [(BDD.var 0 : BDD .id), .var 1] [.var 1] = .ok (1 / 2) := by
  decide +kernel

/-! ## C36 `error_rate_add` -/

theorem C36_error_rate_add (hm : m.Mono) (f g : List (BDD m)) (hl : f.length = g.length) (N : Nat)
    (hfN : Fits N f) (hgN : Fits N g) (hN : N ≤ 63) :
    errorRateAdd f g = .ok (mean N (fun x => if bitsAt f x = bitsAt g x then 0 else 1)) := by
  obtain ⟨a, ha, ea⟩ := xorDifferenceAdd_spec f g hl.le
  obtain ⟨l, hl'⟩ := addTerminalValues_ok hm a (xor_vars hfN hgN ea) (by omega)
  exact errorRateAdd_spec f g hl hfN hgN hN ha hl'

theorem C36_agrees_with_error_rate (hm : m.Mono) (f g : List (BDD m)) (hl : f.length = g.length)
    (N : Nat) (hfN : Fits N f) (hgN : Fits N g) (hN : N ≤ 63) :
    errorRateAdd f g = errorRate f g := by
  obtain ⟨q, hq, he, _⟩ := C35_error_rate f g N hl hfN hgN (by omega)
  rw [C36_error_rate_add hm f g hl N hfN hgN hN, hq, he]

/-- With 64 levels the total wraps to 0 and the result is not a number. -/
theorem C36_sixty_four_levels : ∃ f g : List (BDD Mgr.id), f.length = g.length ∧ Fits 64 f ∧ Fits 64 g ∧
    errorRateAdd f g = .error .nonFinite ∧ errorRate f g = .ok (1 / 2) := by
  refine ⟨[.var 63], [.zero], rfl, by decide +kernel, by decide +kernel, by decide +kernel,
    by decide +kernel⟩

example : errorRateAdd [(BDD.var 0 : BDD .id), .var 1] [.var 0, .var 2] = .ok (1 / 2) ∧
    Fits 3 [(BDD.var 0 : BDD .id), .var 1] ∧ Fits 3 [(BDD.var 0 : BDD .id), .var 2] := by decide +kernel

/-! ## C39 `worst_case_bit_flip_error` -/

theorem C39_worst_case_bit_flip_error (f g : List (BDD m)) (hl : f.length = g.length)
    (h32 : f.length < 2 ^ 32) :
    ∃ v, worstCaseBitFlipError f g = .ok v ∧ IsMax (fun x => hamming (bitsAt f x) (bitsAt g x)) v :=
  worstCaseBitFlipError_spec f g hl h32

theorem C39_worst_case_bit_flip_error_add (hm : m.Mono) (f g : List (BDD m)) (hl : f.length = g.length)
    (h64 : f.length ≤ 64) (N : Nat) (hfN : Fits N f) (hgN : Fits N g) (hN : N ≤ 64) :
    ∃ v, worstCaseBitFlipErrorAdd f g = .ok v ∧
      IsMax (fun x => hamming (bitsAt f x) (bitsAt g x)) v := by
  obtain ⟨a, ha, ea⟩ := xorDifferenceAdd_spec f g hl.le
  obtain ⟨l, hl'⟩ := addTerminalValues_ok hm a (xor_vars hfN hgN ea) hN
  exact worstCaseBitFlipErrorAdd_spec f g hl h64 ha hl'

theorem C39_assertion (f g : List (BDD m)) (h : f.length ≠ g.length) :
    worstCaseBitFlipError f g = .error .assertion := by
  rw [worstCaseBitFlipError, if_pos h]

/-- From 65 output bits on, a difference in bit 64 leaves the range of `__builtin_popcountll`. -/
theorem C39_sixty_five_bits : ∃ f g : List (BDD Mgr.id), f.length = 65 ∧ g.length = 65 ∧
    worstCaseBitFlipErrorAdd f g = .error .ub ∧ worstCaseBitFlipError f g = .ok 1 := by
  refine ⟨List.replicate 64 .zero ++ [.one], List.replicate 65 .zero, by simp, by simp,
    by decide +kernel, by decide +kernel⟩

example : worstCaseBitFlipError [(BDD.var 0 : BDD .id), .var 1] [.var 1, .zero] = .ok 2 ∧
    worstCaseBitFlipErrorAdd [(BDD.var 0 : BDD .id), .var 1] [.var 1, .zero] = .ok 2 := by decide +kernel

/-! ## C40 `average_bit_flip_error_add` -/

theorem C40_average_bit_flip_error_add (hm : m.Mono) (f g : List (BDD m)) (hl : f.length = g.length)
    (hne : f ≠ []) (h64 : f.length ≤ 64) (N : Nat) (hfN : Fits N f) (hgN : Fits N g)
    (hN : (f.length + 1) * 2 ^ N ≤ 2 ^ 64) :
    averageBitFlipErrorAdd f g = .ok (mean N (fun x => (hamming (bitsAt f x) (bitsAt g x) : ℚ))) := by
  obtain ⟨a, ha, ea⟩ := xorDifferenceAdd_spec f g hl.le
  have hN64 : N ≤ 64 := by
    have hpos : 1 ≤ f.length := List.length_pos_iff.mpr hne
    have hp : 2 ^ N < 2 ^ 64 := by nlinarith [Nat.two_pow_pos N]
    exact ((Nat.pow_lt_pow_iff_right (by norm_num)).mp hp).le
  obtain ⟨l, hl'⟩ := addTerminalValues_ok hm a (xor_vars hfN hgN ea) hN64
  exact averageBitFlipErrorAdd_spec f g hl hfN hgN hN h64 ha hl' hne

/-- Without the bound the `unsigned long` sum wraps: four output bits, 63 variables, mean distance 2,
result 0. -/
theorem C40_average_bit_flip_error_add_overflow : ∃ f g : List (BDD Mgr.id), f.length = g.length ∧
    Fits 63 f ∧ Fits 63 g ∧ averageBitFlipErrorAdd f g = .ok 0 ∧
    mean 63 (fun x => (hamming (bitsAt f x) (bitsAt g x) : ℚ)) = 2 := by
  have h1 : Fits 63 [(BDD.var 62 : BDD .id), .var 62, .var 62, .var 62] := by decide +kernel
  have h2 : Fits 63 [(BDD.zero : BDD .id), .zero, .zero, .zero] := by decide +kernel
  refine ⟨[.var 62, .var 62, .var 62, .var 62], [.zero, .zero, .zero, .zero], rfl, h1, h2,
    by decide +kernel, ?_⟩
  obtain ⟨q, hq, he, _⟩ := C40_average_bit_flip_error [(BDD.var 62 : BDD .id), .var 62, .var 62, .var 62]
    [.zero, .zero, .zero, .zero] 63 rfl h1 h2 (by norm_num)
  rw [← he]
  have h3 : averageBitFlipError [(BDD.var 62 : BDD .id), .var 62, .var 62, .var 62]
      [.zero, .zero, .zero, .zero] = .ok 2 := by decide +kernel
  rw [h3] at hq
  exact (Except.ok.inj hq).symm

example : averageBitFlipErrorAdd [(BDD.var 0 : BDD .id), .var 1] [.var 1, .zero] = .ok 1 := by
  decide +kernel

/-! ## C41 `wcre_add` -/

theorem C41_wcre_add (hm : m.Mono) (r : NumRep) (f g : List (BDD m)) (hf : SignOk r f) (hg : SignOk r g)
    (N : Nat) (hfN : Fits N f) (hgN : Fits N g) (hN : N ≤ 64) :
    ∃ q, wcreAdd r f g = .ok q ∧ IsMax (relErrAt r f g) q := by
  obtain ⟨q, hq⟩ := wcreAdd_ok hm r f g hf hg hfN hgN hN
  have := wcreAdd_spec r f g hf hg hq
  simp only [relErr_eq] at this
  exact ⟨q, hq, this⟩

example : wcreAdd .baseTwo [(BDD.var 0 : BDD .id), .one] [.zero, .var 1] = .ok 1 ∧
    wcreAdd .twosComplement [(BDD.var 0 : BDD .id), .one] [.zero, .one] = .ok 1 := by decide +kernel

/-! ## C47 `acre_add` -/

theorem C47_acre_add (hm : m.Mono) (r : NumRep) (f g : List (BDD m)) (hf : SignOk r f) (hg : SignOk r g)
    (N : Nat) (hfN : Fits N f) (hgN : Fits N g) (hN : N ≤ 64) :
    acreAdd r f g = .ok (mean N (relErrAt r f g)) := by
  obtain ⟨a, ha, ea⟩ := relativeDiffAdd_spec r f g hf hg
  obtain ⟨l, hl⟩ := addTerminalValues_ok hm a (vars_lt_of_bits hfN hgN _ ea) hN
  rw [acreAdd_spec r f g hf hg hfN hgN hN ha hl]
  apply congrArg Except.ok
  exact mean_congr N (fun x => relErr_eq r f g x)

example : acreAdd .baseTwo [(BDD.var 0 : BDD .id), .one] [.zero, .one] = .ok (1 / 6) := by decide +kernel

/-! ## C71 dynamic reordering

`count_paths` uses variable indices as levels.  After reordering, an edge can lead to a smaller index,
and the shift count becomes negative, which is undefined.  Whenever the call does return, the result
does not depend on the order. -/

/-- The manager with the levels of the variables 0 and 1 exchanged. -/
def Mgr.swap01 : Mgr where
  lvl := Equiv.swap 0 1
  inj := (Equiv.swap 0 1).injective

/-- Counterexample: for the order 1, 0 the error rate of `x0 ∧ x1` against 0 has undefined behaviour. -/
theorem C71_reordering_false : ∃ f g : List (BDD Mgr.swap01), f.length = g.length ∧ Fits 2 f ∧ Fits 2 g ∧
    errorRateAdd f g = .error .ub ∧ averageCaseErrorAdd .baseTwo f g = .error .ub ∧
    worstCaseErrorAdd .baseTwo f g = .error .ub := by
  refine ⟨[(BDD.var 0).and (.var 1)], [.zero], rfl, by decide +kernel, by decide +kernel,
    by decide +kernel, by decide +kernel, by decide +kernel⟩

/-- Any variable order: if the histogram is computed without undefined behaviour, it is the right one.
Missing for the full claim: that it is always computed, which is false. -/
theorem C71_terminal_values_partial (a : ADD m) (N : Nat) (hN : N ≤ 64)
    (hdep : ∀ x y : Asg, (∀ v, v < N → x v = y v) → a.eval x = a.eval y) (l : List (ℚ × Nat))
    (hl : addTerminalValues a = .ok l) :
    (∀ q, q ∈ l.map Prod.fst ↔ ∃ x, a.eval x = q) ∧
    ∃ W : Nat, 0 < W ∧ (l.map Prod.snd).sum = W ∧
      ∀ g : ℚ → ℚ, (l.map (fun p => g p.1 * p.2)).sum = W * mean N (fun x => g (a.eval x)) := by
  obtain ⟨W, _, h1, h2, _, h3, h4⟩ := terminalValues_mean a (ADD.vars_lt hdep) hN hl
  exact ⟨h1, W, h2, h3, h4⟩

/-- Any variable order: the metrics are right or undefined. -/
theorem C71_metrics_partial (r : NumRep) (f g : List (BDD m)) (hf : SignOk r f) (hg : SignOk r g)
    (hl : f.length = g.length) (N : Nat) (hfN : Fits N f) (hgN : Fits N g) (hN : N ≤ 63)
    (hlen : f.length + N ≤ 256) :
    (∀ v, worstCaseErrorAdd r f g = .ok v → IsMax (fun x => |valAt r f x - valAt r g x|) (v : Int)) ∧
    (∀ q, averageCaseErrorAdd r f g = .ok q →
      q = mean N (fun x => ((|valAt r f x - valAt r g x| : Int) : ℚ))) ∧
    (∀ q, errorRateAdd f g = .ok q → q = mean N (fun x => if bitsAt f x = bitsAt g x then 0 else 1)) ∧
    (∀ q, wcreAdd r f g = .ok q → IsMax (relErrAt r f g) q) ∧
    (∀ q, acreAdd r f g = .ok q → q = mean N (relErrAt r f g)) := by
  refine ⟨fun v hv => worstCaseErrorAdd_spec r f g hf hg (by omega) hv, ?_, ?_, ?_, ?_⟩
  · intro q hq
    obtain ⟨a, ha, ea⟩ := absoluteDifferenceAdd_spec r f g hf hg
    cases hl' : addTerminalValues a with
    | error e => simp [averageCaseErrorAdd, ha, hl', bind, Except.bind] at hq
    | ok l =>
      rw [averageCaseErrorAdd_spec r f g hf hg hfN hgN (by omega) (by omega) ha hl'] at hq
      exact (Except.ok.inj hq).symm
  · intro q hq
    obtain ⟨a, ha, ea⟩ := xorDifferenceAdd_spec f g hl.le
    cases hl' : addTerminalValues a with
    | error e => simp [errorRateAdd, ha, hl', bind, Except.bind] at hq
    | ok l =>
      rw [errorRateAdd_spec f g hl hfN hgN hN ha hl'] at hq
      exact (Except.ok.inj hq).symm
  · intro q hq
    have := wcreAdd_spec r f g hf hg hq
    simp only [relErr_eq] at this
    exact this
  · intro q hq
    obtain ⟨a, ha, ea⟩ := relativeDiffAdd_spec r f g hf hg
    cases hl' : addTerminalValues a with
    | error e => simp [acreAdd, ha, hl', bind, Except.bind] at hq
    | ok l =>
      rw [acreAdd_spec r f g hf hg hfN hgN (by omega) ha hl'] at hq
      rw [← Except.ok.inj hq]
      exact mean_congr N (fun x => relErr_eq r f g x)

/-- A reordered case that is not undefined. -/
example : errorRateAdd [(BDD.var 0 : BDD .swap01)] [.zero] = .ok (1 / 2) ∧
    errorRateAdd [((BDD.var 1).and (.var 2) : BDD .swap01)] [.zero] = .ok (1 / 4) := by decide +kernel

end Verif

import Verif.Props.WorstCase
import Verif.Proofs.TestsuiteRates
import Verif.Proofs.DumpDot
import Verif.Props.Relative
import Verif.Props.Papers
import Verif.Props.Arith

/-!
# C114, C115: the tests of the repository

`/repo/tests`.
-/

namespace Verif

variable {m : Mgr} {rnd dec : ℚ → ℚ}

/-! ## C114: all checks hold -/

/-- "Generic OR constraint error rate test" with any number of variables up to 53 (30 in the file): every check
holds, with doubles. -/
theorem C114_or (hr : Nearest rnd) (n : Nat) (hn : n ≤ 53) :
    testOr m rnd n = .ok (List.replicate (2 * n + 2) true) := by
  have h : OrFrom 0 n ((List.range n).foldl (fun b i => b.or (.var i)) (orBdd n : BDD m)) := fun x => by
    unfold orBdd
    rw [foldl_or_eval, foldl_or_eval]
    simp
  obtain ⟨l, h1, h2, h3⟩ := orTestLoop_ok hr n hn _ h n 0 _ _ (by omega) (.inl rfl) h
  have hl : l = List.replicate (2 * n) true := List.eq_replicate_iff.mpr ⟨h2, h3⟩
  unfold testOr
  have e := requireRate_eq hr _ _ n hn h.fits h.fits 0
  simp only [if_true, mean_const, decide_true] at e
  show (_ >>= _) = _
  rw [e, ok_bind', ok_bind', h1, ok_bind', hl]
  rfl

/-- "Generic AND constraint error rate test", likewise (20 variables in the file). -/
theorem C114_and (hr : Nearest rnd) (n : Nat) (hn : n ≤ 53) :
    testAnd m rnd n = .ok (List.replicate (2 * n + 2) true) := by
  have h : AndFrom 0 n (andBdd n : BDD m) := fun x => by
    unfold andBdd
    rw [foldl_and_eval]
    simp
  obtain ⟨l, h1, h2, h3⟩ := andTestLoop_ok hr n hn _ h n 0 _ (by omega) h
  have hl : l = List.replicate (2 * n) true := List.eq_replicate_iff.mpr ⟨h2, h3⟩
  unfold testAnd
  have e := requireRate_eq hr _ _ n hn h.fits h.fits 0
  simp only [if_true, mean_const, decide_true] at e
  show (_ >>= _) = _
  rw [e, ok_bind', ok_bind', h1, ok_bind', hl]
  rfl

/-- A rounding of the assumed kind exists. -/
example : ∃ rnd : ℚ → ℚ, Nearest rnd := exists_nearest

/-- "Trivial Error Rate Test". -/
theorem C114_trivial_error_rate (hr : Nearest rnd) : testTrivialErrorRate (m := m) rnd = .ok [true, true, true] := by
  have hf : ∀ b : BDD m, (∀ x y : Asg, x 0 = y 0 → x 1 = y 1 → x 2 = y 2 → b.eval x = b.eval y) → Fits 3 [b] :=
    fun b h => fits_eval fun x y hxy => h x y (hxy 0 (by norm_num)) (hxy 1 (by norm_num)) (hxy 2 (by norm_num))
  set a : BDD m := ((BDD.var 0).and (.var 1)).and (.var 2) with ha
  have ea : ∀ x : Asg, a.eval x = (x 0 && x 1 && x 2) := fun x => by simp [ha]
  have e1 : ∀ x, (constrain a (.var 1)).eval x = (x 0 && x 2) := fun x => by rw [constrain_var, ea]; simp
  have e2 : ∀ x, (constrain (constrain a (.var 1)) (.var 0)).eval x = x 2 := fun x => by
    rw [constrain_var, e1]; simp
  have e3 : ∀ x, (constrain (constrain (constrain a (.var 1)) (.var 0)) (.var 2)).eval x = true := fun x => by
    rw [constrain_var, e2]; simp
  have fa := hf a (fun x y h0 h1 h2 => by simp only [ea, h0, h1, h2])
  have key : ∀ g : BDD m, ∀ p : Asg → Bool, (∀ x, (a.eval x = g.eval x) ↔ p x = false) →
      mean 3 (fun x => if a.eval x = g.eval x then 0 else 1) = (count 3 p : ℚ) / 2 ^ 3 := by
    intro g p hp
    rw [← mean_ind_count]
    apply mean_congr
    intro x
    by_cases h : a.eval x = g.eval x
    · rw [if_pos h, (hp x).mp h]; rfl
    · have hpx : p x = true := by
        cases hq : p x
        · exact absurd ((hp x).mpr hq) h
        · rfl
      rw [if_neg h, hpx]; rfl
  unfold testTrivialErrorRate
  simp only [← ha]
  rw [requireRate_eq hr _ _ 3 (by norm_num) fa (hf _ (fun x y h0 h1 h2 => by simp only [e1, h0, h2])),
    requireRate_eq hr _ _ 3 (by norm_num) fa (hf _ (fun x y h0 h1 h2 => by simp only [e2, h2])),
    requireRate_eq hr _ _ 3 (by norm_num) fa (hf _ (fun x y h0 h1 h2 => by simp only [e3])),
    key _ (fun x => x 0 && !x 1 && x 2) (fun x => by
      rw [ea, e1]; cases x 0 <;> cases x 1 <;> cases x 2 <;> simp),
    key _ (fun x => !(x 0 && x 1) && x 2) (fun x => by
      rw [ea, e2]; cases x 0 <;> cases x 1 <;> cases x 2 <;> simp),
    key _ (fun x => !(x 0 && x 1 && x 2)) (fun x => by
      rw [ea, e3]; cases x 0 <;> cases x 1 <;> cases x 2 <;> simp)]
  have c1 : count 3 (fun x => x 0 && !x 1 && x 2) = 1 := by decide +kernel
  have c2 : count 3 (fun x => !(x 0 && x 1) && x 2) = 3 := by decide +kernel
  have c3 : count 3 (fun x => !(x 0 && x 1 && x 2)) = 7 := by decide +kernel
  rw [c1, c2, c3]
  norm_num [bind, Except.bind]

/-- "Example 3 from ASP-DAC 2016 paper". -/
theorem C114_example3 : testExample3 (m := .id) = [true] := by decide +kernel

/-- "Trivial average case error", if the quotient 3 is not changed by rounding it to 100 digits. -/
theorem C114_average (h3 : dec 3 = 3) : testAverage .id rnd dec = .ok [true] := by
  have h : bddAbsoluteDifference .baseTwo [(BDD.one : BDD .id), .one] [.zero, .zero] = .ok [.one, .one, .zero] := by
    decide +kernel
  have h1 : fdiv ((avgLoopF rnd (maxSupportSize [(BDD.one : BDD .id), .one, .zero]) 0
      [(BDD.one : BDD .id), .one, .zero] 0 : Nat) : ℚ)
      (u256 (2 ^ maxSupportSize [(BDD.one : BDD .id), .one, .zero])) = .ok 3 := by
    have e : maxSupportSize [(BDD.one : BDD .id), .one, .zero] = 0 := by decide +kernel
    have c1 : toU256 (countMintermF rnd (BDD.one : BDD .id) 0) = 1 := by
      simp [countMintermF, cntF, toU256, u256, BDD.one, Edge.one]
    have c0 : toU256 (countMintermF rnd (BDD.zero : BDD .id) 0) = 0 := by
      simp [countMintermF, cntF, toU256, u256, BDD.zero, Edge.zero]
    rw [e]
    simp only [avgLoopF, c1, c0]
    norm_num [u256, fdiv]
  unfold testAverage averageCaseErrorF averageValueF
  simp only [h, h1, bind, Except.bind, h3, decide_true]

/-- `check_wcr_values` on constant functions: if the relative error is a whole number, all checks hold, for any
random numbers the generator can give. -/
theorem C114_check_wcr_values (hm : m.Mono) (a b v : Nat) (ha : a < 2 ^ 61) (hb : b < 2 ^ 61)
    (hv : |(a : Int) - b| = v * max 1 (a : Int)) (rs : Nat → Nat → Nat → Nat)
    (hrs : ∀ j i k, rs j i k ≠ 0 ∧ rs j i k ≤ randMax) (fuel : Nat) (hfuel : 2 ^ 256 + 62 ≤ fuel) :
    checkWcrValues (numberToBdds a : List (BDD m)) (numberToBdds b) v 256 rs fuel = .ok [true, true, true, true] := by
  have big : (2 : Nat) ^ 61 < 2 ^ 256 := by norm_num
  obtain ⟨a1, a2, a3⟩ := C13_number_to_bdds (m := m) a (ha.trans big)
  obtain ⟨b1, b2, b3⟩ := C13_number_to_bdds (m := m) b (hb.trans big)
  have len : ∀ (l n : Nat), n < 2 ^ 61 → (1 < l → 2 ^ (l - 1) ≤ n) → l ≤ 61 := by
    intro l n hn h
    by_contra hc
    have h1 := h (by omega)
    have h2 : (2 : Nat) ^ 61 ≤ 2 ^ (l - 1) := Nat.pow_le_pow_right (by norm_num) (by omega)
    omega
  have la := len _ _ ha a3
  have lb := len _ _ hb b3
  set f : List (BDD m) := numberToBdds a with hf
  set g : List (BDD m) := numberToBdds b with hg
  have fne : f ≠ [] := by intro h; rw [h] at a2; simp at a2
  have fitN : ∀ (l : List (BDD m)) (n : Nat), (∀ x, uAt l x = n) → Fits 256 l := by
    intro l n hl c hc w hw
    exfalso
    rw [BDD.mem_supportIndices] at hw
    obtain ⟨x, hx⟩ := hw
    apply hx
    have e := (hl (Function.update x w true)).trans (hl (Function.update x w false)).symm
    have e' := uval_inj (by simp [bitsAt]) e
    obtain ⟨i, hi, rfl⟩ := List.mem_iff_getElem.mp hc
    have e2 := congrArg (fun s => s[i]?) e'
    simpa [bitsAt, hi] using e2
  have rel : ∀ x, relErrAt .baseTwo f g x = v := by
    intro x
    have h1 : valAt .baseTwo f x = (a : Int) := by simp only [valAt]; rw [a1]
    have h2 : valAt .baseTwo g x = (b : Int) := by simp only [valAt]; rw [b1]
    unfold relErrAt
    rw [h1, h2, hv, abs_of_nonneg (Int.natCast_nonneg a)]
    have hpos : (0 : ℚ) < max 1 (a : ℚ) := lt_of_lt_of_le one_pos (le_max_left _ _)
    push_cast
    field_simp
  have hmax : IsMax (relErrAt .baseTwo f g) (v : ℚ) := ⟨⟨fun _ => false, rel _⟩, fun x => (rel x).le⟩
  obtain ⟨D, A, F, hpr⟩ := prepare .baseTwo f g fne (signOk_baseTwo g) (noWrap_baseTwo f g)
  -- the bisection
  have s1 : wcreSearch .baseTwo f g 16 (1 / 10000) fuel = .ok (v : ℚ) := by
    have hD : ∀ x, uAt D x = v * max 1 a := fun x => by
      have := hpr.valD x
      simp only [valAt, a1, b1, hv] at this
      exact_mod_cast this
    have hA : ∀ x, uAt A x = a := fun x => by
      have := hpr.valA x
      simp only [valAt, a1] at this
      rw [abs_of_nonneg (Int.natCast_nonneg a)] at this
      exact_mod_cast this
    have := relativeSearch_const D F (v * max 1 a) (max 1 a) v 16 hD (fun x => by rw [hpr.valF, hA]) (by omega) rfl
      (by have := hpr.lenD; omega) (1 / 10000) (by norm_num) fuel (by omega)
    simp only [wcreSearch, hpr.abs, hpr.maxOne, hpr.diff, bind, Except.bind, this]
  -- the randomized search
  obtain ⟨c, e, s2⟩ := C42_wcre_randomized_search_terminates hm f g fne la lb 256 1 (fitN f a a1) (fitN g b b1) le_rfl
    rs hrs fuel hfuel
  obtain ⟨he, hce⟩ := C42_wcre_randomized_search f g fne la lb 256 1 rs fuel c e s2
  have hce' : v * e = c := by
    obtain ⟨⟨x, hx⟩, -⟩ := hce
    rw [rel] at hx
    have he' : (e : ℚ) ≠ 0 := by exact_mod_cast he.ne'
    rw [eq_div_iff he'] at hx
    exact_mod_cast hx
  -- the symbolic division
  obtain ⟨w, s3, hw1, hw2, k, hk⟩ := C44_wcre_symbolic_division f g fne 16 (by omega) v hmax
  have hwv : (v : ℚ) = w := by
    have p : (0 : ℚ) < 2 ^ 16 := by norm_num
    rw [hk] at hw1 hw2 ⊢
    rw [div_le_iff₀ p] at hw1
    rw [← add_div, lt_div_iff₀ p] at hw2
    have i1 : k ≤ (v : Int) * 2 ^ 16 := by exact_mod_cast hw1
    have i2 : (v : Int) * 2 ^ 16 < k + 1 := by exact_mod_cast hw2
    have : k = (v : Int) * 2 ^ 16 := by omega
    rw [this]; push_cast; norm_num
  unfold checkWcrValues
  simp only [s1, s2, s3, bind, Except.bind, hce', hwv, decide_true]

/-- "Simple worst case relative error metrics". -/
theorem C114_wcr (hm : m.Mono) (rs : Nat → Nat → Nat → Nat → Nat)
    (hrs : ∀ l j i k, rs l j i k ≠ 0 ∧ rs l j i k ≤ randMax) (fuel : Nat) (hfuel : 2 ^ 256 + 62 ≤ fuel) :
    testWcr m rs fuel = .ok (List.replicate 28 true) := by
  have h := fun l a b v ha hb hv => C114_check_wcr_values hm a b v ha hb hv (rs l) (hrs l) fuel hfuel
  unfold testWcr
  simp only []
  rw [h 0 1 1 0 (by norm_num) (by norm_num) (by norm_num), h 1 1 2 1 (by norm_num) (by norm_num) (by norm_num),
    h 2 1 6 5 (by norm_num) (by norm_num) (by norm_num), h 3 1 22 21 (by norm_num) (by norm_num) (by norm_num),
    h 4 1 1232346 1232345 (by norm_num) (by norm_num) (by norm_num),
    h 5 0 1 1 (by norm_num) (by norm_num) (by norm_num), h 6 3 18 5 (by norm_num) (by norm_num) (by norm_num)]
  rfl

/-- The numbers of the last comparison, and a manager without reordering. -/
example : |((3 : Nat) : Int) - (18 : Nat)| = (5 : Nat) * max 1 ((3 : Nat) : Int) ∧ Mgr.id.Mono :=
  ⟨by decide, fun _ _ h => h⟩

/-- "Test child operators". -/
theorem C114_children : testChildren.toOption = some [true, true, true, true] := by decide +kernel

/-- "Cofactor works as expected". -/
theorem C114_cofactor : (testCofactor .id).toOption = some (List.replicate 10 true) := by decide +kernel

/-- There is no cofactor by the constant 0. -/
theorem C114_cofactor_zero (f c : BDD m) (h : ∀ x, c.eval x = false) : cofactorCube f c = .error .logicError := by
  have : c = .zero := BDD.ext_eval fun x => by rw [h x]; rfl
  subst this
  rfl

example : ∀ x, ((BDD.var 0 : BDD .id).and (BDD.var 0).not).eval x = false := by simp

/-- What "Difference in Cofactor and Constrain(?)" asks, for every function and every cube. -/
theorem C114_constrain_cofactor (f c : BDD m) (hc : c.isCube = true) : checkConstrain f c = .ok true := by
  obtain ⟨S, σ, h⟩ := (isCube_iff c).mp hc
  unfold checkConstrain
  rw [cofactorCube_cube h]
  simp [bind, Except.bind]

/-- `IsCube` holds exactly for conjunctions of literals. -/
theorem C114_is_cube (c : BDD m) : c.isCube = true ↔
    ∃ (S : Finset Nat) (σ : Asg), ∀ x, c.eval x = true ↔ ∀ v ∈ S, x v = σ v := isCube_iff c

/-- Both operations evaluate the function with the variables of the cube replaced. -/
theorem C114_constrain_eval (f c : BDD m) (S : Finset Nat) (σ : Asg)
    (h : ∀ x, c.eval x = true ↔ ∀ v ∈ S, x v = σ v) (x : Asg) :
    (constrain f c).eval x = f.eval (fun v => if v ∈ S then σ v else x v) := constrain_cube h f x

/-- With any constraint `Constrain` keeps the function at the inputs that satisfy it. -/
theorem C114_constrain_on (f c : BDD m) (x : Asg) (h : c.eval x = true) : (constrain f c).eval x = f.eval x :=
  constrainF_on _ f c le_rfl x h

example : (constrain (BDD.var 1 : BDD .id) ((BDD.var 0).or (.var 1))) = (BDD.var 0).not.or (.var 1) ∧
    ((BDD.var 0 : BDD .id).or (.var 1)).eval (fun _ => true) = true := by decide +kernel

/-- "Dinge" computes conjunction, disjunction and parity of three variables, then each of them for `x`, for `y` and for
`!y`. -/
theorem C114_dinge : (testDinge m).length = 12 ∧ ∀ (i : Nat) (x : Asg),
    ((testDinge m)[0]?.map (·.eval x) = some (x 0 && x 1 && x 2) ∧
      (testDinge m)[1]?.map (·.eval x) = some (x 0 || x 1 || x 2) ∧
      (testDinge m)[2]?.map (·.eval x) = some (x 0 ^^ x 1 ^^ x 2)) ∧
    (i < 3 → (testDinge m)[3 + i]?.map (·.eval x) = (testDinge m)[i]?.map (·.eval (Function.update x 0 true)) ∧
      (testDinge m)[6 + i]?.map (·.eval x) = (testDinge m)[i]?.map (·.eval (Function.update x 1 true)) ∧
      (testDinge m)[9 + i]?.map (·.eval x) = (testDinge m)[i]?.map (·.eval (Function.update x 1 false))) := by
  refine ⟨rfl, fun i x => ⟨⟨?_, ?_, ?_⟩, fun hi => ?_⟩⟩
  · simp [testDinge]
  · simp [testDinge]
  · simp [testDinge]
  · have hi' : i = 0 ∨ i = 1 ∨ i = 2 := by omega
    rcases hi' with rfl | rfl | rfl <;>
      refine ⟨congrArg some (constrain_var _ 0 x), congrArg some (constrain_var _ 1 x),
        congrArg some (constrain_notVar _ 1 x)⟩

/-- The check that is commented out in "Trivial worst_case_error" would print 3. -/
theorem C114_trivial_worst_case :
    worstCaseError .baseTwo (testTrivialWorstCase m).1 (testTrivialWorstCase m).2 = .ok 3 := by
  obtain ⟨w, h1, ⟨x, hx⟩, -⟩ := C25_worst_case_error_unsigned (testTrivialWorstCase m).1 (testTrivialWorstCase m).2
    (by simp [testTrivialWorstCase]) (by simp [testTrivialWorstCase])
  rw [h1]
  simp [testTrivialWorstCase, uAt, bitsAt, uval] at hx
  have : w = 3 := by exact_mod_cast hx.symm
  rw [this]

/-- The cube of two literals -/
example : ((BDD.var 0 : BDD .id).and (BDD.var 2).not).isCube = true ∧
    ((BDD.var 0 : BDD .id).or (.var 2)).isCube = false := by decide +kernel

/-- With another function `Constrain` and `Cofactor` differ: the latter refuses it. -/
theorem C114_not_a_cube : (checkConstrain (BDD.var 0 : BDD .id) ((BDD.var 0).or (.var 1))).toOption = none := by
  decide +kernel

/-- "Difference in Cofactor and Constrain(?)" with any number of variables (30 in the file). -/
theorem C114_constrain (n : Nat) : ∃ l, testConstrain m n = .ok l ∧ l.length = n * (n + 1) / 2 ∧
    ∀ s ∈ l, s = List.replicate 6 true := by
  have hpos : ∀ j, (posCube j : BDD m).isCube = true := fun j => by
    rw [isCube_iff]
    refine ⟨Finset.range (j + 1), fun _ => true, fun x => ?_⟩
    unfold posCube
    rw [foldl_and_eval]
    simp
  have hneg : ∀ j, (negCube j : BDD m).isCube = true := fun j => by
    rw [isCube_iff]
    refine ⟨Finset.range (j + 1), fun _ => false, fun x => ?_⟩
    unfold negCube
    rw [foldl_andNot_eval]
    simp
  have body : ∀ (o a x : BDD m) (j : Nat), constrainBody o a x j = .ok (List.replicate 6 true) := fun o a x j => by
    unfold constrainBody
    simp only [C114_constrain_cofactor _ _ (hpos j), C114_constrain_cofactor _ _ (hneg j), bind, Except.bind]
    rfl
  have all : ∀ (o a x : BDD m) (js : List Nat),
      js.mapM (constrainBody o a x) = .ok (List.replicate js.length (List.replicate 6 true)) := fun o a x js => by
    induction js with
    | nil => rfl
    | cons j js ih => simp only [List.mapM_cons, body, ih, bind, Except.bind, pure, Except.pure]; rfl
  refine ⟨_, by unfold testConstrain; simp only [all]; rfl, ?_, fun s hs => (List.mem_replicate.mp hs).2⟩
  rw [List.length_replicate, List.length_flatMap]
  simp only [List.length_range]
  have : ∀ n : Nat, ((List.range n).map (fun i => i + 1)).sum * 2 = n * (n + 1) := fun n => by
    induction n with
    | zero => rfl
    | succ n ih => rw [List.range_succ, List.map_append, List.sum_append, Nat.add_mul, ih]; simp; ring
  have := this n
  omega

/-- "Example 3 from ASP-DAC 2016 paper" of `approximation_operations_test.cpp`. -/
theorem C114_rounding (hm : m.Mono) : testRounding m = .ok [true, true, true] := by
  obtain ⟨h1, h2, h3⟩ := C81_figures hm
  unfold testRounding
  simp only [h1, h2, h3, bind, Except.bind, decide_true]

/-- The tests of class `Function`, for any functions. -/
theorem C114_function (asserts : Bool) (f1 f2 f3 : BDD m) :
    testIndex asserts f1 f2 f3 = .ok [true, true, true, true] ∧
    testBinary asserts f1 f2 f3 = .ok [true, true, true, true] ∧
    testAssign asserts f1 f2 f3 = .ok [true, true, true, true] ∧
    testBits asserts f1 = .ok [true, true, true] := by
  refine ⟨?_, ?_, ?_, ?_⟩
  · simp [testIndex, AboFunction.new, AboFunction.at_, AboFunction.assign, check, bind, Except.bind]
  · simp [testBinary, AboFunction.new, AboFunction.at_, AboFunction.and, AboFunction.or, AboFunction.andAssign,
      AboFunction.orAssign, AboFunction.andLoop, AboFunction.orLoop, check, bind, Except.bind]
  · simp [testAssign, AboFunction.new, AboFunction.at_, AboFunction.andAssign, AboFunction.orAssign,
      AboFunction.andLoop, AboFunction.orLoop, check, bind, Except.bind]
  · simp [testBits, AboFunction.new, AboFunction.numBits, AboFunction.isSigned, check, bind, Except.bind]

/-- The tests of the PLA parser. -/
theorem C114_parsing : (testOrPla .id).toOption = some (List.replicate 12 true) ∧
    (testFunsPla .id).toOption = some (List.replicate 18 true) ∧
    (testDcPla .id).toOption = some (List.replicate 4 true) := by
  refine ⟨?_, ?_, ?_⟩ <;> decide +kernel

/-- What the first test only checks by counting nodes: the function read from `or.pla` is the disjunction. -/
theorem C114_or_pla : ((plaRun orPla (plaNew ([] : List (BDD .id)) [] [])).toOption.map (·.outputs)) =
    some [(BDD.var 0).or (.var 1)] := by decide +kernel

/-- "Display BDD in a fancy way" runs through. -/
theorem C114_dump_dot (asserts : Bool) : ∃ s, testDumpDot m asserts = .ok s := by
  obtain ⟨g1, h1, -⟩ := dumpDot_ok asserts [(andBdd 2 : BDD m), xorBdd 12] ["and".toList, "xor with spaces".toList] []
    true none (.inr rfl) (.inl rfl)
  obtain ⟨g2, h2, -⟩ := dumpDot_ok asserts [(andBdd 2 : BDD m), xorBdd 12] [] [] true none (.inl rfl) (.inl rfl)
  obtain ⟨g3, h3, -⟩ := dumpDot_ok asserts [(andBdd 2 : BDD m)] [] [] false none (.inl rfl) (.inl rfl)
  exact ⟨(g1, g2, g3), by simp only [testDumpDot, dumpDotOne, h1, h2, h3, bind, Except.bind]⟩

/-! ## C115: what the tests would notice -/

theorem findSub_some_zero {pat msg : List Char} (hp : pat ≠ []) : findSub pat msg = some 0 ↔ pat <+: msg := by
  cases msg with
  | nil => simp [findSub, hp]
  | cons c cs =>
    unfold findSub
    rw [← List.isPrefixOf_iff_prefix]
    split
    · rename_i h; simp [h]
    · rename_i h; simp [h]

/-- The predicate on the exception rejects exactly the texts that begin with the expected one. -/
theorem C115_message_partial (msg : List Char) :
    messagePred msg = false ↔ "Cannot retrieve child of a terminal node".toList <+: msg := by
  rw [← findSub_some_zero (by decide)]
  unfold messagePred
  split
  · rename_i p h; rw [h]; simp
  · rename_i h; rw [h]; simp

/-- So it accepts any other text, and would reject the text of the expected message itself. -/
theorem C115_message_false : (∃ msg, ¬ "Cannot retrieve child of a terminal node".toList <:+: msg ∧
    messagePred msg = true) ∧ messagePred "Cannot retrieve child of a terminal node".toList = false := by
  refine ⟨⟨"out of memory".toList, by decide, by decide⟩, ?_⟩
  rw [C115_message_partial]

/-- The function the test calls `xor_bdd` is the constant 0. -/
theorem C115_xor_false (n : Nat) : (testXorFunction n : BDD m) = .zero := by
  apply BDD.ext_eval
  intro x
  unfold testXorFunction
  cases h : ((List.range n).foldl (fun b i => b.and (.var i)) (BDD.zero : BDD m)).eval x
  · rfl
  · rw [foldl_and_eval] at h
    exact absurd h.1 (by simp)

/-- The last check of `check_wcr_values`, meant for `wcre_add`, always agrees with the one before. -/
theorem C115_wcre_add_unchecked_false (f g : List (BDD m)) (v n fuel : Nat) (rs : Nat → Nat → Nat → Nat)
    (l : List Bool) (h : checkWcrValues f g v n rs fuel = .ok l) : l[2]? = l[3]? := by
  unfold checkWcrValues at h
  cases h1 : wcreSearch .baseTwo f g 16 (1 / 10000) fuel with
  | error e => rw [h1] at h; cases h
  | ok a =>
    cases h2 : wcreRandomizedSearch .baseTwo f g n 1 rs fuel with
    | error e => rw [h1, h2] at h; cases h
    | ok b =>
      cases h3 : wcreSymbolicDivision .baseTwo f g 16 with
      | error e => rw [h1, h2, h3] at h; cases h
      | ok c =>
        rw [h1, h2, h3] at h
        simp only [bind, Except.bind] at h
        cases h
        rfl

end Verif

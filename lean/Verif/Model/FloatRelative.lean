import Verif.Model.FloatMetrics
import Verif.Model.Relative

/-!
# The relative errors with `double`s

The multiplications by constants and the relative errors of `Verif/Model/Relative.lean` once more, with every
operation on `double`s rounded by `rnd`, the logarithm given by `lg`, and every result of type `cpp_dec_float_100`
rounded by `dec`. The numbers below `2 ^ 256` that are converted to `cpp_dec_float_100` have at most 78 digits.
-/

namespace Verif

variable {m : Mgr}

/-- `std::log2`, as used in `/repo/src/util/cudd_helpers.cpp:622` and `664`: the result is never on the wrong side of
a whole number. That holds for every result that is next to the exact logarithm among the `double`s. -/
structure Log2 (lg : ℚ → ℚ) : Prop where
  ge : ∀ (d : ℚ) (k : ℤ), 2 ^ k ≤ d → (k : ℚ) ≤ lg d
  le : ∀ (d : ℚ) (k : ℤ), 0 < d → d ≤ 2 ^ k → lg d ≤ k

/-- `bdd_multiply_constant(…, uint256_t factor)`, `/repo/src/util/cudd_helpers.cpp:659-685`. The logarithm of 0 is
minus infinity, of which the maximum with 0 is taken. -/
def bddMultiplyConstantF (rnd lg : ℚ → ℚ) (f : List (BDD m)) (factor : Nat) : Except Fault (List (BDD m)) :=
  bddMultiplyConstantLg f factor (if factor = 0 then 0 else ⌈lg (rnd factor)⌉.toNat)

/-- `bdd_multiply_constant(…, double factor, unsigned num_extra_bits)`,
`/repo/src/util/cudd_helpers.cpp:616-657`. The logarithm of 0 is infinite, that of a negative number is not a number,
and converting those or a negative number is undefined. The largest `uint256_t` is rounded to `2 ^ 256` in the
assertion, so that `2 ^ 256` passes. -/
def bddMultiplyConstantQF (rnd lg : ℚ → ℚ) (f : List (BDD m)) (factor : ℚ) (numExtraBits : Nat) :
    Except Fault (List (BDD m)) :=
  if factor ≤ 0 then .error .ub
  else if ⌈lg factor⌉ < 0 then .error .ub
  else if factor > 2 ^ 256 then .error .assertion
  else if numExtraBits ≥ 64 then .error .ub
  else do
    let extraBits := ⌈lg factor⌉.toNat + 2
    let fc := zeroExtend f (f.length + extraBits)
    let great := u256 ⌊factor⌋.toNat
    let r1 ← mulLoop fc great (fun i => (i : Int)) (List.range 256)
      (List.replicate (f.length + extraBits) .zero)
    let lesser := ⌊rnd ((factor - ⌊factor⌋) * 2 ^ numExtraBits)⌋.toNat
    mulLoop fc lesser (fun i => -((numExtraBits - i : Nat) : Int)) (List.range numExtraBits) r1

/-- `has_greater_equal_both`, `/repo/src/error_metrics/worst_case_relative_error.cpp:32-40`. -/
def hasGreaterEqualBothF (rnd lg : ℚ → ℚ) (f g : List (BDD m)) (counter denominator : Nat) :
    Except Fault (Bool × Bool) := do
  let bddDenom ← bddMultiplyConstantF rnd lg f denominator
  let bddCounter ← bddMultiplyConstantF rnd lg g counter
  .ok (existsGreaterEquals bddDenom bddCounter)

/-- First loop of `wcre_randomized_search`, `/repo/src/error_metrics/worst_case_relative_error.cpp:78-88`. -/
def doubleCounterF (rnd lg : ℚ → ℚ) (d f : List (BDD m)) : Nat → Nat → Except Fault (Nat × Nat ⊕ Nat × Nat)
  | 0, _ => .error .fuel
  | fuel + 1, counter => do
      let counter' := u256 (counter * 2)
      let ge ← hasGreaterEqualBothF rnd lg d f counter' 1
      if ge.2 then .ok (.inl (toLong counter', 1))
      else if !ge.1 then .ok (.inr (counter' / 2, 1))
      else doubleCounterF rnd lg d f fuel counter'

/-- Second loop of `wcre_randomized_search`, `/repo/src/error_metrics/worst_case_relative_error.cpp:90-99`. -/
def doubleDenominatorF (rnd lg : ℚ → ℚ) (d f : List (BDD m)) : Nat → Nat → Except Fault (Nat × Nat ⊕ Nat × Nat)
  | 0, _ => .error .fuel
  | fuel + 1, denominator => do
      let denominator' := u256 (denominator * 2)
      let ge ← hasGreaterEqualBothF rnd lg d f 1 denominator'
      if ge.2 then .ok (.inl (1, toLong denominator'))
      else if ge.1 then .ok (.inr (1, denominator'))
      else doubleDenominatorF rnd lg d f fuel denominator'

/-- The sampling loop, `/repo/src/error_metrics/worst_case_relative_error.cpp:135-143`, with the counts of
`count_minterms` and the walk of `random_satisfying_input` on `double`s. -/
def sampleLoopF (rnd : ℚ → ℚ) (d f : List (BDD m)) (greater : BDD m) (readSize : Nat) (rs : Nat → Nat → Nat) :
    Nat → Nat → Nat × Nat → Except Fault (Nat × Nat)
  | 0, _, cd => .ok cd
  | k + 1, i, cd => do
      let nextInput ← randomSatisfyingInputF rnd greater (countMintermsF rnd greater) readSize (rs i)
      let testCounter ← evalFn d nextInput
      let testDenominator ← evalFn f nextInput
      sampleLoopF rnd d f greater readSize rs k (i + 1)
        (if u256 (testCounter * cd.2) > u256 (cd.1 * testDenominator) then
          (testCounter, testDenominator) else cd)

/-- Main loop of `wcre_randomized_search`, `/repo/src/error_metrics/worst_case_relative_error.cpp:108-145`. -/
def randomizedLoopF (rnd lg : ℚ → ℚ) (d f : List (BDD m)) (lastGreater : BDD m) (readSize samples : Nat)
    (rs : Nat → Nat → Nat → Nat) : Nat → Nat → Nat × Nat → Except Fault (Nat × Nat)
  | 0, _, _ => .error .fuel
  | fuel + 1, j, cd => do
      let c := cd.1 / Nat.gcd cd.1 cd.2
      let e := cd.2 / Nat.gcd cd.1 cd.2
      let absGr := d.map (·.and lastGreater)
      let fGr := f.map (·.and lastGreater)
      let bddDenom ← bddMultiplyConstantF rnd lg absGr e
      let bddCounter ← bddMultiplyConstantF rnd lg fGr c
      let greater := greaterThan bddDenom bddCounter
      if greater.isZero then .ok (toLong c, toLong e)
      else do
        let cd' ← sampleLoopF rnd d f greater readSize (rs j) samples 0 (c, e)
        randomizedLoopF rnd lg d f lastGreater readSize samples rs fuel (j + 1) cd'

/-- `wcre_randomized_search` after the operands have been prepared,
`/repo/src/error_metrics/worst_case_relative_error.cpp:54-145`. -/
def randomizedSearchF (rnd lg : ℚ → ℚ) (d f : List (BDD m)) (readSize samples : Nat) (rs : Nat → Nat → Nat → Nat)
    (fuel : Nat) : Except Fault (Nat × Nat) :=
  if d.all (·.isZero) then .ok (0, 1)
  else do
    let geOne ← hasGreaterEqualBothF rnd lg d f 1 1
    if geOne.2 then .ok (1, 1)
    else do
      let start ← if geOne.1 then doubleCounterF rnd lg d f fuel 1 else doubleDenominatorF rnd lg d f fuel 1
      match start with
      | .inl res => .ok res
      | .inr (counter, denominator) => do
        let bddDenom ← bddMultiplyConstantF rnd lg d denominator
        let bddCounter ← bddMultiplyConstantF rnd lg f counter
        randomizedLoopF rnd lg d f (greaterThan bddDenom bddCounter) readSize samples rs fuel 0
          (counter, denominator)

/-- `wcre_randomized_search`, `/repo/src/error_metrics/worst_case_relative_error.cpp:42-146`. -/
def wcreRandomizedSearchF (rnd lg : ℚ → ℚ) (r : NumRep) (f fHat : List (BDD m)) (readSize samples : Nat)
    (rs : Nat → Nat → Nat → Nat) (fuel : Nat) : Except Fault (Nat × Nat) := do
  let fAbs ← bddAbs r f
  let f1 ← bddMaxOne fAbs
  let d ← bddAbsoluteDifference r f fHat
  randomizedSearchF rnd lg d f1 readSize samples rs fuel

/-- First loop of `wcre_search`, `/repo/src/error_metrics/worst_case_relative_error.cpp:172-190`. The powers of two
are `float`s up to `2 ^ 127`; the next one is infinite and its logarithm cannot be converted. -/
def factorLoopF (rnd lg : ℚ → ℚ) (d f : List (BDD m)) : Nat → Nat → Except Fault (ℚ ⊕ ℚ × ℚ × BDD m)
  | 0, _ => .error .ub
  | n + 1, k => do
      let multiplied ← bddMultiplyConstantQF rnd lg f (2 ^ k) 16
      let ge := existsGreaterEquals d multiplied
      if ge.2 then .ok (.inl (2 ^ k))
      else if !ge.1 then
        if k ≠ 0 then do
          let multiplied ← bddMultiplyConstantQF rnd lg f (2 ^ k / 2) 16
          .ok (.inr (2 ^ k / 2, 2 ^ k, greaterThan d multiplied))
        else .ok (.inr (0, 2 ^ k, .one))
      else factorLoopF rnd lg d f n (k + 1)

/-- Binary search of `wcre_search`, `/repo/src/error_metrics/worst_case_relative_error.cpp:191-215`, with rounding in
lines 191, 193 and 215. -/
def bisectLoopF (rnd lg : ℚ → ℚ) (d f : List (BDD m)) (precision : ℚ) : Nat → ℚ → ℚ → BDD m → Except Fault ℚ
  | 0, _, _, _ => .error .fuel
  | fuel + 1, lo, hi, lastGreater =>
      if rnd (hi - lo) > precision then do
        let middle := rnd (rnd (lo + hi) / 2)
        let reducedF := f.map (·.and lastGreater)
        let reducedD := d.map (·.and lastGreater)
        let multiplied ← bddMultiplyConstantQF rnd lg reducedF middle 16
        let ge := existsGreaterEquals reducedD multiplied
        if ge.2 then .ok middle
        else if ge.1 then
          bisectLoopF rnd lg d f precision fuel middle hi (greaterThan reducedD multiplied)
        else bisectLoopF rnd lg d f precision fuel lo middle lastGreater
      else .ok (rnd (rnd (lo + hi) / 2))

/-- `wcre_search` after the operands have been prepared,
`/repo/src/error_metrics/worst_case_relative_error.cpp:159-215`. -/
def relativeSearchF (rnd lg : ℚ → ℚ) (d f : List (BDD m)) (numExtraBits : Nat) (precision : ℚ) (fuel : Nat) :
    Except Fault ℚ :=
  if d.all (·.isZero) then .ok 0
  else do
    let d' := List.replicate numExtraBits BDD.zero ++ d
    let f' := List.replicate numExtraBits BDD.zero ++ f
    match ← factorLoopF rnd lg d' f' 128 0 with
    | .inl v => .ok v
    | .inr (lo, hi, lastGreater) => bisectLoopF rnd lg d' f' precision fuel lo hi lastGreater

/-- `wcre_search`, `/repo/src/error_metrics/worst_case_relative_error.cpp:148-216`. -/
def wcreSearchF (rnd lg : ℚ → ℚ) (r : NumRep) (f fHat : List (BDD m)) (numExtraBits : Nat) (precision : ℚ)
    (fuel : Nat) : Except Fault ℚ := do
  let fAbs ← bddAbs r f
  let f1 ← bddMaxOne fAbs
  let d ← bddAbsoluteDifference r f fHat
  relativeSearchF rnd lg d f1 numExtraBits precision fuel

/-- `wcre_symbolic_division`, `/repo/src/error_metrics/worst_case_relative_error.cpp:218-234`. The power of two
becomes a `cpp_dec_float_100` for the division. -/
def wcreSymbolicDivisionF (dec : ℚ → ℚ) (r : NumRep) (f fHat : List (BDD m)) (numExtraBits : Nat) :
    Except Fault ℚ := do
  let d ← bddAbsoluteDifference r f fHat
  let fAbs ← bddAbs r f
  let noZero ← bddMaxOne fAbs
  let divided ← bddDivide d noZero numExtraBits
  let p ← pow2 numExtraBits
  let q ← fdiv (getMaxValue divided) (dec p)
  .ok (dec q)

/-- Loop of `maximum_relative_value_bounds`, `/repo/src/error_metrics/worst_case_relative_error.cpp:246-263`, with
rounding in lines 259 and 260. -/
def maxBoundsLoopF (rnd dec : ℚ → ℚ) (f : List (BDD m)) : List (BDD m) → BDD m → ℚ × ℚ → Except Fault (ℚ × ℚ)
  | [], _, res => .ok res
  | b :: bs, zeroSoFar, res => do
      let maxVal := getMaxValue (f.map (·.and (zeroSoFar.and b)))
      let p1 ← pow2 (bs.length + 1)
      let lo ← fdiv maxVal (dec (rnd (p1 - 1)))
      let p ← pow2 bs.length
      let hi ← fdiv maxVal (dec p)
      maxBoundsLoopF rnd dec f bs (zeroSoFar.and b.not) (max res.1 (dec lo), max res.2 (dec hi))

/-- `maximum_relative_value_bounds`, `/repo/src/error_metrics/worst_case_relative_error.cpp:236-266`. -/
def maximumRelativeValueBoundsF (rnd dec : ℚ → ℚ) (f g : List (BDD m)) : Except Fault (ℚ × ℚ) := do
  let maxOne ← bddMaxOne g
  maxBoundsLoopF rnd dec f maxOne.reverse .one (0, 0)

/-- `wcre_bounds`, `/repo/src/error_metrics/worst_case_relative_error.cpp:268-281`. -/
def wcreBoundsF (rnd dec : ℚ → ℚ) (r : NumRep) (f fHat : List (BDD m)) : Except Fault (ℚ × ℚ) := do
  let d ← bddAbsoluteDifference r f fHat
  let fAbs ← bddAbs r f
  let absMaxOne ← bddMaxOne fAbs
  maximumRelativeValueBoundsF rnd dec d absMaxOne

/-- Loop of `average_relative_value`, `/repo/src/error_metrics/average_case_relative_error.cpp:23-37`, with rounding
in lines 32 to 34. -/
def avgBoundsLoopF (rnd dec : ℚ → ℚ) (f : List (BDD m)) : List (BDD m) → BDD m → ℚ × ℚ → Except Fault (ℚ × ℚ)
  | [], _, res => .ok res
  | b :: bs, zeroSoFar, res => do
      let average ← averageValueF rnd dec (f.map (·.and (zeroSoFar.and b)))
      let p1 ← pow2 (bs.length + 1)
      let lo ← fdiv average (dec (rnd (p1 - 1)))
      let p ← pow2 bs.length
      let hi ← fdiv average (dec p)
      avgBoundsLoopF rnd dec f bs (zeroSoFar.and b.not) (dec (res.1 + dec lo), dec (res.2 + dec hi))

/-- `average_relative_value`, `/repo/src/error_metrics/average_case_relative_error.cpp:12-40`. -/
def averageRelativeValueF (rnd dec : ℚ → ℚ) (f g : List (BDD m)) : Except Fault (ℚ × ℚ) := do
  let maxOne ← bddMaxOne g
  avgBoundsLoopF rnd dec f maxOne.reverse .one (0, 0)

/-- `acre_bounds`, `/repo/src/error_metrics/average_case_relative_error.cpp:42-52`. -/
def acreBoundsF (rnd dec : ℚ → ℚ) (r : NumRep) (f fHat : List (BDD m)) : Except Fault (ℚ × ℚ) := do
  let d ← bddAbsoluteDifference r f fHat
  let fAbs ← bddAbs r f
  averageRelativeValueF rnd dec d fAbs

/-- `acre_symbolic_division`, `/repo/src/error_metrics/average_case_relative_error.cpp:80-98`. -/
def acreSymbolicDivisionF (rnd dec : ℚ → ℚ) (r : NumRep) (f fHat : List (BDD m)) (numExtraBits : Nat) :
    Except Fault ℚ := do
  let d ← bddAbsoluteDifference r f fHat
  let fAbs ← bddAbs r f
  let noZero ← bddMaxOne fAbs
  let divided ← bddDivide d noZero numExtraBits
  let avg ← averageValueF rnd dec divided
  let p ← pow2 numExtraBits
  let q ← fdiv avg (dec p)
  .ok (dec q)

end Verif

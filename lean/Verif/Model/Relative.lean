import Verif.Model.Metrics

/-!
# `src/error_metrics/worst_case_relative_error.cpp` and `average_case_relative_error.cpp`:
the relative errors that are not computed with ADDs

The search loops have no bound in the code.  The model runs them for `fuel` iterations and gives
`Fault.fuel` if they have not ended by then; that is not an outcome of the code.
-/

namespace Verif

variable {m : Mgr}

/-- `has_greater_equal_both`, `/repo/src/error_metrics/worst_case_relative_error.cpp:32-40`. -/
def hasGreaterEqualBoth (f g : List (BDD m)) (counter denominator : Nat) :
    Except Fault (Bool × Bool) := do
  let bddDenom ← bddMultiplyConstant f denominator
  let bddCounter ← bddMultiplyConstant g counter
  .ok (existsGreaterEquals bddDenom bddCounter)

/-- `long(uint256_t)`: saturating. -/
def toLong (n : Nat) : Nat := min n (2 ^ 63 - 1)

/-- First loop of `wcre_randomized_search`, doubling the counter,
`/repo/src/error_metrics/worst_case_relative_error.cpp:78-88`.  `inl` is an early return. -/
def doubleCounter (d f : List (BDD m)) : Nat → Nat → Except Fault (Nat × Nat ⊕ Nat × Nat)
  | 0, _ => .error .fuel
  | fuel + 1, counter => do
      let counter' := u256 (counter * 2)
      let ge ← hasGreaterEqualBoth d f counter' 1
      if ge.2 then .ok (.inl (toLong counter', 1))
      else if !ge.1 then .ok (.inr (counter' / 2, 1))
      else doubleCounter d f fuel counter'

/-- Second loop of `wcre_randomized_search`, doubling the denominator,
`/repo/src/error_metrics/worst_case_relative_error.cpp:90-99`. -/
def doubleDenominator (d f : List (BDD m)) : Nat → Nat → Except Fault (Nat × Nat ⊕ Nat × Nat)
  | 0, _ => .error .fuel
  | fuel + 1, denominator => do
      let denominator' := u256 (denominator * 2)
      let ge ← hasGreaterEqualBoth d f 1 denominator'
      if ge.2 then .ok (.inl (1, toLong denominator'))
      else if ge.1 then .ok (.inr (1, denominator'))
      else doubleDenominator d f fuel denominator'

/-- The sampling loop, `/repo/src/error_metrics/worst_case_relative_error.cpp:135-143`, from sample
`i` for `k` more samples.  `rs i` is the sequence of random numbers used for sample `i`. -/
def sampleLoop (d f : List (BDD m)) (greater : BDD m) (readSize : Nat) (rs : Nat → Nat → Nat) :
    Nat → Nat → Nat × Nat → Except Fault (Nat × Nat)
  | 0, _, cd => .ok cd
  | k + 1, i, cd => do
      let nextInput ← randomSatisfyingInput greater (countMinterms greater) readSize (rs i)
      let testCounter ← evalFn d nextInput
      let testDenominator ← evalFn f nextInput
      sampleLoop d f greater readSize rs k (i + 1)
        (if u256 (testCounter * cd.2) > u256 (cd.1 * testDenominator) then
          (testCounter, testDenominator) else cd)

/-- Main loop of `wcre_randomized_search`,
`/repo/src/error_metrics/worst_case_relative_error.cpp:108-145`.  `rs j` are the random numbers of
iteration `j`. -/
def randomizedLoop (d f : List (BDD m)) (lastGreater : BDD m) (readSize samples : Nat)
    (rs : Nat → Nat → Nat → Nat) : Nat → Nat → Nat × Nat → Except Fault (Nat × Nat)
  | 0, _, _ => .error .fuel
  | fuel + 1, j, cd => do
      let c := cd.1 / Nat.gcd cd.1 cd.2
      let e := cd.2 / Nat.gcd cd.1 cd.2
      let absGr := d.map (·.and lastGreater)
      let fGr := f.map (·.and lastGreater)
      let bddDenom ← bddMultiplyConstant absGr e
      let bddCounter ← bddMultiplyConstant fGr c
      let greater := greaterThan bddDenom bddCounter
      if greater.isZero then .ok (toLong c, toLong e)
      else do
        let cd' ← sampleLoop d f greater readSize (rs j) samples 0 (c, e)
        randomizedLoop d f lastGreater readSize samples rs fuel (j + 1) cd'

/-- `wcre_randomized_search` after the operands have been prepared,
`/repo/src/error_metrics/worst_case_relative_error.cpp:54-145`.  The computation of the support
(lines 59-67) has no effect. -/
def randomizedSearch (d f : List (BDD m)) (readSize samples : Nat) (rs : Nat → Nat → Nat → Nat)
    (fuel : Nat) : Except Fault (Nat × Nat) :=
  if d.all (·.isZero) then .ok (0, 1)
  else do
    let geOne ← hasGreaterEqualBoth d f 1 1
    if geOne.2 then .ok (1, 1)
    else do
      let start ← if geOne.1 then doubleCounter d f fuel 1 else doubleDenominator d f fuel 1
      match start with
      | .inl res => .ok res
      | .inr (counter, denominator) => do
        let bddDenom ← bddMultiplyConstant d denominator
        let bddCounter ← bddMultiplyConstant f counter
        randomizedLoop d f (greaterThan bddDenom bddCounter) readSize samples rs fuel 0
          (counter, denominator)

/-- `wcre_randomized_search`, `/repo/src/error_metrics/worst_case_relative_error.cpp:42-146`.
`readSize` is `mgr.ReadSize()`. -/
def wcreRandomizedSearch (r : NumRep) (f fHat : List (BDD m)) (readSize samples : Nat)
    (rs : Nat → Nat → Nat → Nat) (fuel : Nat) : Except Fault (Nat × Nat) := do
  let fAbs ← bddAbs r f
  let f1 ← bddMaxOne fAbs
  let d ← bddAbsoluteDifference r f fHat
  randomizedSearch d f1 readSize samples rs fuel

/-- First loop of `wcre_search`, `/repo/src/error_metrics/worst_case_relative_error.cpp:172-190`,
from the factor `2^k`, for `n` more factors; the `float` factor becomes infinite after `2^127`, and
the conversion of its logarithm to `size_t` is then undefined.  `inl` is an early return, `inr` gives
`min`, `max` and `last_greater`.  The fractional multiplication uses its default of 16 extra bits. -/
def factorLoop (d f : List (BDD m)) : Nat → Nat → Except Fault (ℚ ⊕ ℚ × ℚ × BDD m)
  | 0, _ => .error .ub
  | n + 1, k => do
      let multiplied ← bddMultiplyConstantQ f (2 ^ k) 16
      let ge := existsGreaterEquals d multiplied
      if ge.2 then .ok (.inl (2 ^ k))
      else if !ge.1 then
        if k ≠ 0 then do
          let multiplied ← bddMultiplyConstantQ f (2 ^ k / 2) 16
          .ok (.inr (2 ^ k / 2, 2 ^ k, greaterThan d multiplied))
        else .ok (.inr (0, 2 ^ k, .one))
      else factorLoop d f n (k + 1)

/-- Binary search of `wcre_search`, `/repo/src/error_metrics/worst_case_relative_error.cpp:191-215`. -/
def bisectLoop (d f : List (BDD m)) (precision : ℚ) : Nat → ℚ → ℚ → BDD m → Except Fault ℚ
  | 0, _, _, _ => .error .fuel
  | fuel + 1, lo, hi, lastGreater =>
      if hi - lo > precision then do
        let middle := (lo + hi) / 2
        let reducedF := f.map (·.and lastGreater)
        let reducedD := d.map (·.and lastGreater)
        let multiplied ← bddMultiplyConstantQ reducedF middle 16
        let ge := existsGreaterEquals reducedD multiplied
        if ge.2 then .ok middle
        else if ge.1 then
          bisectLoop d f precision fuel middle hi (greaterThan reducedD multiplied)
        else bisectLoop d f precision fuel lo middle lastGreater
      else .ok ((lo + hi) / 2)

/-- `wcre_search` after the operands have been prepared,
`/repo/src/error_metrics/worst_case_relative_error.cpp:159-215`. -/
def relativeSearch (d f : List (BDD m)) (numExtraBits : Nat) (precision : ℚ) (fuel : Nat) :
    Except Fault ℚ :=
  if d.all (·.isZero) then .ok 0
  else do
    let d' := List.replicate numExtraBits BDD.zero ++ d
    let f' := List.replicate numExtraBits BDD.zero ++ f
    match ← factorLoop d' f' 128 0 with
    | .inl v => .ok v
    | .inr (lo, hi, lastGreater) => bisectLoop d' f' precision fuel lo hi lastGreater

/-- `wcre_search`, `/repo/src/error_metrics/worst_case_relative_error.cpp:148-216`. -/
def wcreSearch (r : NumRep) (f fHat : List (BDD m)) (numExtraBits : Nat) (precision : ℚ)
    (fuel : Nat) : Except Fault ℚ := do
  let fAbs ← bddAbs r f
  let f1 ← bddMaxOne fAbs
  let d ← bddAbsoluteDifference r f fHat
  relativeSearch d f1 numExtraBits precision fuel

/-- `wcre_symbolic_division`, `/repo/src/error_metrics/worst_case_relative_error.cpp:218-234`. -/
def wcreSymbolicDivision (r : NumRep) (f fHat : List (BDD m)) (numExtraBits : Nat) :
    Except Fault ℚ := do
  let d ← bddAbsoluteDifference r f fHat
  let fAbs ← bddAbs r f
  let noZero ← bddMaxOne fAbs
  let divided ← bddDivide d noZero numExtraBits
  let p ← pow2 numExtraBits
  fdiv (getMaxValue divided) p

/-- Loop of `maximum_relative_value_bounds`,
`/repo/src/error_metrics/worst_case_relative_error.cpp:246-263`, over the remaining bits of
`max_one`, most significant first; the index of a bit is the number of bits behind it. -/
def maxBoundsLoop (f : List (BDD m)) : List (BDD m) → BDD m → ℚ × ℚ → Except Fault (ℚ × ℚ)
  | [], _, res => .ok res
  | b :: bs, zeroSoFar, res => do
      let maxVal := getMaxValue (f.map (·.and (zeroSoFar.and b)))
      let p1 ← pow2 (bs.length + 1)
      let lo ← fdiv maxVal (p1 - 1)
      let p ← pow2 bs.length
      let hi ← fdiv maxVal p
      maxBoundsLoop f bs (zeroSoFar.and b.not) (max res.1 lo, max res.2 hi)

/-- `maximum_relative_value_bounds`,
`/repo/src/error_metrics/worst_case_relative_error.cpp:236-266`. -/
def maximumRelativeValueBounds (f g : List (BDD m)) : Except Fault (ℚ × ℚ) := do
  let maxOne ← bddMaxOne g
  maxBoundsLoop f maxOne.reverse .one (0, 0)

/-- `wcre_bounds`, `/repo/src/error_metrics/worst_case_relative_error.cpp:268-281`. -/
def wcreBounds (r : NumRep) (f fHat : List (BDD m)) : Except Fault (ℚ × ℚ) := do
  let d ← bddAbsoluteDifference r f fHat
  let fAbs ← bddAbs r f
  let absMaxOne ← bddMaxOne fAbs
  maximumRelativeValueBounds d absMaxOne

/-- Loop of `average_relative_value`,
`/repo/src/error_metrics/average_case_relative_error.cpp:23-37`. -/
def avgBoundsLoop (f : List (BDD m)) : List (BDD m) → BDD m → ℚ × ℚ → Except Fault (ℚ × ℚ)
  | [], _, res => .ok res
  | b :: bs, zeroSoFar, res => do
      let average ← averageValue (f.map (·.and (zeroSoFar.and b)))
      let p1 ← pow2 (bs.length + 1)
      let lo ← fdiv average (p1 - 1)
      let p ← pow2 bs.length
      let hi ← fdiv average p
      avgBoundsLoop f bs (zeroSoFar.and b.not) (res.1 + lo, res.2 + hi)

/-- `average_relative_value`, `/repo/src/error_metrics/average_case_relative_error.cpp:12-40`. -/
def averageRelativeValue (f g : List (BDD m)) : Except Fault (ℚ × ℚ) := do
  let maxOne ← bddMaxOne g
  avgBoundsLoop f maxOne.reverse .one (0, 0)

/-- `acre_bounds`, `/repo/src/error_metrics/average_case_relative_error.cpp:42-52`. -/
def acreBounds (r : NumRep) (f fHat : List (BDD m)) : Except Fault (ℚ × ℚ) := do
  let d ← bddAbsoluteDifference r f fHat
  let fAbs ← bddAbs r f
  averageRelativeValue d fAbs

/-- `acre_symbolic_division`, `/repo/src/error_metrics/average_case_relative_error.cpp:80-98`. -/
def acreSymbolicDivision (r : NumRep) (f fHat : List (BDD m)) (numExtraBits : Nat) :
    Except Fault ℚ := do
  let d ← bddAbsoluteDifference r f fHat
  let fAbs ← bddAbs r f
  let noZero ← bddMaxOne fAbs
  let divided ← bddDivide d noZero numExtraBits
  let avg ← averageValue divided
  let p ← pow2 numExtraBits
  fdiv avg p

end Verif

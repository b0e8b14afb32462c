import Verif.Model.Count

/-!
# `src/error_metrics`: the metrics computed on BDDs

`uint256_t` arithmetic is taken modulo `2^256`; `double` and `cpp_dec_float_100` values are exact
rationals, except that an infinite or undefined result is `Fault.nonFinite`.
-/

namespace Verif

variable {m : Mgr}

/-- `uint256_t` values wrap. -/
def u256 (n : Nat) : Nat := n % 2 ^ 256

/-- Division of floating point numbers. -/
def fdiv (a b : ℚ) : Except Fault ℚ := if b = 0 then .error .nonFinite else .ok (a / b)

/-- `std::pow(2.0, n)`: infinite from `n = 1024` on. -/
def pow2 (n : Nat) : Except Fault ℚ := if n ≥ 1024 then .error .nonFinite else .ok (2 ^ n)

/-- Loop of `get_max_value`, `/repo/src/error_metrics/worst_case_error.cpp:34-43`, over the
remaining bits, most significant first; the exponent of a bit is the number of bits behind it. -/
def maxLoop : List (BDD m) → BDD m → Nat → Nat
  | [], _, error => error
  | b :: bs, sigma, error =>
      if (sigma.and b).isZero then maxLoop bs sigma error
      else maxLoop bs (sigma.and b) (u256 (error + u256 (2 ^ bs.length)))

/-- `get_max_value`, `/repo/src/error_metrics/worst_case_error.cpp:14-46`. -/
def getMaxValue (f : List (BDD m)) : Nat := maxLoop f.reverse .one 0

/-- `worst_case_error`, `/repo/src/error_metrics/worst_case_error.cpp:48-57`. -/
def worstCaseError (r : NumRep) (f fHat : List (BDD m)) : Except Fault Nat := do
  let d ← bddAbsoluteDifference r f fHat
  .ok (getMaxValue d)

/-- `worst_case_error_percent`, `/repo/src/error_metrics/worst_case_error.cpp:59-66`. -/
def worstCaseErrorPercent (r : NumRep) (f fHat : List (BDD m)) : Except Fault ℚ := do
  let wce ← worstCaseError r f fHat
  let p ← pow2 f.length
  fdiv wce (p - 1)

/-- Loop of `approximate_worst_case_error`, `/repo/src/error_metrics/worst_case_error.cpp:99-112`,
over the remaining bit pairs, most significant first (the index `i` is the number of pairs behind).
`start` is `bit_start`; the result is `bit_start`, `bit_end + 1` and the collected pairs, which are
already in the order after the `std::reverse` of lines 117-118. -/
def approxLoop (n : Nat) : List (BDD m × BDD m) → Option Nat → List (BDD m × BDD m) →
    Option Nat × Nat × List (BDD m × BDD m)
  | [], start, acc => (start, 0, acc)
  | (a, b) :: ps, start, acc =>
      let start' := if start = none ∧ a.edge ≠ b.edge then some ps.length else start
      match start' with
      | none => approxLoop n ps none ((a, b) :: acc)
      | some s =>
        if s - ps.length ≥ n then (some s, ps.length + 1, acc)
        else approxLoop n ps (some s) ((a, b) :: acc)

/-- `approximate_worst_case_error`, `/repo/src/error_metrics/worst_case_error.cpp:86-133`.  For two's
complement numbers the sign bits are left out of the search and put back afterwards. -/
def approximateWorstCaseError (r : NumRep) (f fHat : List (BDD m)) (n : Int) : Except Fault Nat :=
  if f.length ≠ fHat.length ∨ n < 1 then .error .assertion
  else
    let pairs := (f.zip fHat).reverse
    let searched := match r with
      | .baseTwo => pairs
      | .twosComplement => pairs.drop 1
    match approxLoop n.toNat searched none [] with
    | (none, _, _) => .ok 0
    | (some _, shift, acc) => do
        let f1 ← match r with
          | .baseTwo => .ok (acc.map Prod.fst)
          | .twosComplement => do let s ← vback f; .ok (acc.map Prod.fst ++ [s])
        let g1 ← match r with
          | .baseTwo => .ok (acc.map Prod.snd)
          | .twosComplement => do let s ← vback fHat; .ok (acc.map Prod.snd ++ [s])
        let d ← bddAbsoluteDifference r f1 g1
        .ok (u256 (u256 (u256 (getMaxValue d + 1) * u256 (2 ^ shift)) + 2 ^ 256 - 1))

/-- `max_support_size`, `/repo/src/error_metrics/average_case_error.cpp:18-22`, `41-45` and
`/repo/src/error_metrics/average_bit_flip_error.cpp:14-22`. -/
def maxSupportSize (f : List (BDD m)) : Nat := f.foldl (fun a b => max a b.supportSize) 0

/-- `uint256_t(double)`: truncation. -/
def toU256 (q : ℚ) : Nat := u256 ⌊q⌋.toNat

/-- Loop of `average_value`, `/repo/src/error_metrics/average_case_error.cpp:24-29`, from bit `i`. -/
def avgLoop (n : Nat) : Nat → List (BDD m) → Nat → Nat
  | _, [], sum => sum
  | i, b :: bs, sum =>
      avgLoop n (i + 1) bs (u256 (sum + u256 (u256 (2 ^ i) * toU256 (b.countMinterm n))))

/-- `average_value`, `/repo/src/error_metrics/average_case_error.cpp:12-33`. -/
def averageValue (f : List (BDD m)) : Except Fault ℚ :=
  fdiv (avgLoop (maxSupportSize f) 0 f 0) (u256 (2 ^ maxSupportSize f))

/-- Inner loop of `mean_squared_value`, `/repo/src/error_metrics/average_case_error.cpp:49-58`: bit
`i` is `a`, the list holds the bits from `j` on. -/
def sqInner (n i : Nat) (a : BDD m) : Nat → List (BDD m) → Nat → Nat
  | _, [], sum => sum
  | j, b :: bs, sum =>
      let minterms := (a.and b).countMinterm n
      let doubling := if i = j then 1 else 2
      sqInner n i a (j + 1) bs (u256 (sum + u256 (u256 (u256 (u256 (2 ^ i) * u256 (2 ^ j)) *
        toU256 minterms) * doubling)))

/-- Outer loop of `mean_squared_value`, `/repo/src/error_metrics/average_case_error.cpp:47-59`. -/
def sqLoop (n : Nat) : Nat → List (BDD m) → Nat → Nat
  | _, [], sum => sum
  | i, a :: rest, sum => sqLoop n (i + 1) rest (sqInner n i a i (a :: rest) sum)

/-- `mean_squared_value`, `/repo/src/error_metrics/average_case_error.cpp:35-63`. -/
def meanSquaredValue (f : List (BDD m)) : Except Fault ℚ :=
  fdiv (sqLoop (maxSupportSize f) 0 f 0) (u256 (2 ^ maxSupportSize f))

/-- `average_case_error`, `/repo/src/error_metrics/average_case_error.cpp:65-74`. -/
def averageCaseError (r : NumRep) (f fHat : List (BDD m)) : Except Fault ℚ := do
  let d ← bddAbsoluteDifference r f fHat
  averageValue d

/-- `mean_squared_error`, `/repo/src/error_metrics/average_case_error.cpp:76-85`. -/
def meanSquaredError (r : NumRep) (f fHat : List (BDD m)) : Except Fault ℚ := do
  let d ← bddAbsoluteDifference r f fHat
  meanSquaredValue d

/-- Miter loop of `error_rate`, `/repo/src/error_metrics/error_rate.cpp:19-22`. -/
def miterLoop : List (BDD m) → List (BDD m) → BDD m → Except Fault (BDD m)
  | [], _, acc => .ok acc
  | _ :: _, [], _ => .error .ub
  | a :: as, b :: bs, acc => miterLoop as bs (acc.or (a.xor b))

/-- `error_rate`, `/repo/src/error_metrics/error_rate.cpp:10-29`.  The subtraction is done on
`unsigned int`: without any function it gives `2^32 - 1`, which `Cudd_CountMinterm` takes as -1, and its finite result
is divided by infinity. -/
def errorRate (f fHat : List (BDD m)) : Except Fault ℚ := do
  let miter ← miterLoop f fHat .zero
  let numVariables := (terminalLevel [f, fHat] + 2 ^ 32 - 1) % 2 ^ 32
  if numVariables = 2 ^ 32 - 1 then .ok 0 else
  let p ← pow2 numVariables
  fdiv (miter.countMinterm numVariables) p

/-- `error_rate` for single functions, `/repo/src/error_metrics/error_rate.cpp:163-170`. -/
def errorRate1 (f fHat : BDD m) : Except Fault ℚ := errorRate [f] [fHat]

/-- `difference.push_back(f[i] ^ f_hat[i])` for vectors of equal size,
`/repo/src/error_metrics/error_rate.cpp:38-41`, `73-76`. -/
def xorDiff (f g : List (BDD m)) : List (BDD m) := List.zipWith BDD.xor f g

/-- `for (const BDD& b : difference) if (b.Eval(inputs).IsOne()) { …; break; }`,
`/repo/src/error_metrics/error_rate.cpp:53-60`, `116-125`. -/
def anyOne (inp : List Nat) : List (BDD m) → Except Fault Bool
  | [] => .ok false
  | b :: bs => do
      let r ← b.evalIn inp
      if r then .ok true else anyOne inp bs

/-- Loop of `error_rate_sampling`, `/repo/src/error_metrics/error_rate.cpp:47-62`: `k` samples from
sample `i` on; `rs i v` is the number drawn for input `v` of sample `i`. -/
def samplingLoop (diff : List (BDD m)) (readSize : Nat) (rs : Nat → Nat → Nat) :
    Nat → Nat → Except Fault Nat
  | _, 0 => .ok 0
  | i, k + 1 => do
      let hit ← anyOne ((List.range readSize).map (fun v => rs i v % 2)) diff
      let rest ← samplingLoop diff readSize rs (i + 1) k
      .ok (hit.toNat + rest)

/-- `error_rate_sampling`, `/repo/src/error_metrics/error_rate.cpp:31-64`.  The loop counter is an
`int`: more than `INT_MAX` samples overflow it. -/
def errorRateSampling (f fHat : List (BDD m)) (readSize : Nat) (samples : Int)
    (rs : Nat → Nat → Nat) : Except Fault ℚ :=
  if f.length ≠ fHat.length then .error .assertion
  else if samples ≥ 2 ^ 31 then .error .ub
  else do
    let e ← samplingLoop (xorDiff f fHat) readSize rs 0 samples.toNat
    fdiv e samples

/-- Sampling loop for one bit of `error_rate_efficient_sampling`,
`/repo/src/error_metrics/error_rate.cpp:110-130`: the number of good ones of `k` samples of `d`, from
sample `b` on; `rs b` is the random sequence of sample `b`, `earlier` the differences of the bits with
a higher rate. -/
def goodLoop (d : BDD m) (cnt : NMap ℚ) (readSize : Nat) (earlier : List (BDD m))
    (rs : Nat → Nat → Nat) : Nat → Nat → Except Fault Nat
  | _, 0 => .ok 0
  | b, k + 1 => do
      let input ← randomSatisfyingInput d cnt readSize (rs b)
      let found ← anyOne input earlier
      let rest ← goodLoop d cnt readSize earlier rs (b + 1) k
      .ok ((!found).toNat + rest)

/-- Main loop of `error_rate_efficient_sampling`, `/repo/src/error_metrics/error_rate.cpp:93-138`,
over the activations from position `i` on; `denom` is `maximum_rate - activations[0].second`,
`earlier` the differences of the activations before position `i`.  Converting NaN (`0/0`) or a too
large number to `long` is undefined, and so is counting an `int` up to more than `INT_MAX`. -/
def effLoop (diff : List (BDD m)) (readSize : Nat) (samples : Int) (denom : ℚ)
    (rs : Nat → Nat → Nat → Nat) : Nat → List (BDD m) → List (Nat × ℚ) → ℚ → Except Fault ℚ
  | _, _, [], rate => .ok rate
  | i, earlier, (idx, act) :: rest, rate =>
      if denom = 0 then .error .ub
      else
        let q := samples * act / denom
        let indexSamples : Int := if 0 ≤ q then ⌊q⌋ else ⌈q⌉
        if indexSamples ≥ 2 ^ 31 ∨ indexSamples < -2 ^ 63 then .error .ub
        else do
          let d ← vget diff idx
          if indexSamples = 0 then
            effLoop diff readSize samples denom rs (i + 1) (earlier ++ [d]) rest rate
          else do
            let good ← goodLoop d (countMinterms d) readSize earlier (rs i) 0 indexSamples.toNat
            effLoop diff readSize samples denom rs (i + 1) (earlier ++ [d]) rest
              (rate + act * (good / indexSamples))

/-- The activations before sorting, `/repo/src/error_metrics/error_rate.cpp:83-92`:
`CountMinterm(n)/2^n` with `n = terminal_level - 1`. -/
def activations (diff : List (BDD m)) : List (Nat × ℚ) :=
  (List.range diff.length).zip (diff.map (fun d => d.edge.frac))

/-- A possible outcome of `std::sort` with the comparison of
`/repo/src/error_metrics/error_rate.cpp:93-97` (the sort is not stable, so the order of equal rates
is open). -/
def SortedActs (diff : List (BDD m)) (acts : List (Nat × ℚ)) : Prop :=
  acts.Perm (activations diff) ∧ acts.Pairwise (fun a b => a.2 ≥ b.2)

/-- `error_rate_efficient_sampling`, `/repo/src/error_metrics/error_rate.cpp:66-141`, where `acts` is
the sorted list of activations.  `CountMinterm` and `pow` overflow from 1025 variables on. For
`ReadSize() == 0` the unsigned `terminal_level - 1` wraps and `pow` is infinite: all rates are 0, and with more than one
bit the NaN of `0.0 / 0.0` is converted to `long`. -/
def errorRateEfficientSampling (f fHat : List (BDD m)) (readSize : Nat) (samples : Int)
    (acts : List (Nat × ℚ)) (rs : Nat → Nat → Nat → Nat) : Except Fault ℚ :=
  if f.length ≠ fHat.length then .error .assertion
  else
    let diff := xorDiff f fHat
    match acts with
    | [] => .error .ub
    | (idx0, act0) :: rest =>
      if readSize = 0 then (if rest = [] then .ok 0 else .error .ub)
      else if readSize > 1024 then .error .nonFinite
      else do
        let maximumRate := (diff.map (fun d => d.edge.frac)).sum
        let d0 ← vget diff idx0
        let rate ← effLoop diff readSize samples (maximumRate - act0) rs 1 [d0] rest act0
        .ok (min 1 rate)

/-- Sum of `average_bit_flip_error`, `/repo/src/error_metrics/average_bit_flip_error.cpp:24-28`. -/
def bitFlipSum (n : Nat) : List (BDD m) → List (BDD m) → ℚ
  | a :: as, b :: bs => (a.xor b).countMinterm n + bitFlipSum n as bs
  | _, _ => 0

/-- `average_bit_flip_error`, `/repo/src/error_metrics/average_bit_flip_error.cpp:9-32`. -/
def averageBitFlipError (f fHat : List (BDD m)) : Except Fault ℚ :=
  if f.length ≠ fHat.length then .error .assertion
  else do
    let n := maxSupportSize (f ++ fHat)
    let p ← pow2 n
    fdiv (bitFlipSum n f fHat) p

end Verif

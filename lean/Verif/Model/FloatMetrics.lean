import Verif.Model.Float
import Verif.Model.Metrics

/-!
# The error metrics that count minterms, with `double`s

`average_value`, `mean_squared_value`, `error_rate` and `average_bit_flip_error` with every operation on `double`s
rounded by `rnd`, and the quotients of `cpp_dec_float_100`s rounded by `dec`. `uint256_t` is exact modulo `2 ^ 256`, as
in `Verif/Model/Metrics.lean`, which is the same code with exact numbers. Numbers below `2 ^ 256` are
`cpp_dec_float_100`s, so only the quotient is rounded.
-/

namespace Verif

variable {m : Mgr}

/-- A rounding to 100 decimal digits, the quotients in
`/repo/src/error_metrics/average_case_error.cpp:31-32` and `61-62`. -/
structure Dec100 (dec : ℚ → ℚ) : Prop where
  near : ∀ q, |dec q - q| ≤ |q| / 10 ^ 99

/-- CUDD's recursion for `CountMinterm`, as called in `/repo/src/error_metrics/error_rate.cpp:27`: the constant true
function counts `full`, a node half of each child. CUDD stores the counts of shared nodes; that changes no value. -/
def cntF (rnd : ℚ → ℚ) (full : ℚ) : DD → Bool → ℚ
  | .one, neg => if neg then 0 else full
  | .node _ t c e, neg => rnd (rnd (cntF rnd full t neg / 2) + rnd (cntF rnd full e (neg ^^ c) / 2))

/-- `CountMinterm(n)`, called in `/repo/src/error_metrics/average_case_error.cpp:27`. `2 ^ n` is exact for
`n < 1024`. -/
def countMintermF (rnd : ℚ → ℚ) (f : BDD m) (n : Nat) : ℚ := cntF rnd (2 ^ n) f.edge.n f.edge.neg

/-- Loop of `average_value`, `/repo/src/error_metrics/average_case_error.cpp:24-29`, from bit `i`. -/
def avgLoopF (rnd : ℚ → ℚ) (n : Nat) : Nat → List (BDD m) → Nat → Nat
  | _, [], sum => sum
  | i, b :: bs, sum =>
      avgLoopF rnd n (i + 1) bs (u256 (sum + u256 (u256 (2 ^ i) * toU256 (countMintermF rnd b n))))

/-- `average_value`, `/repo/src/error_metrics/average_case_error.cpp:12-33`. -/
def averageValueF (rnd dec : ℚ → ℚ) (f : List (BDD m)) : Except Fault ℚ := do
  let q ← fdiv (avgLoopF rnd (maxSupportSize f) 0 f 0) (u256 (2 ^ maxSupportSize f))
  .ok (dec q)

/-- Inner loop of `mean_squared_value`, `/repo/src/error_metrics/average_case_error.cpp:49-58`: bit
`i` is `a`, the list holds the bits from `j` on. -/
def sqInnerF (rnd : ℚ → ℚ) (n i : Nat) (a : BDD m) : Nat → List (BDD m) → Nat → Nat
  | _, [], sum => sum
  | j, b :: bs, sum =>
      let minterms := countMintermF rnd (a.and b) n
      let doubling := if i = j then 1 else 2
      sqInnerF rnd n i a (j + 1) bs (u256 (sum + u256 (u256 (u256 (u256 (2 ^ i) * u256 (2 ^ j)) *
        toU256 minterms) * doubling)))

/-- Outer loop of `mean_squared_value`, `/repo/src/error_metrics/average_case_error.cpp:47-59`. -/
def sqLoopF (rnd : ℚ → ℚ) (n : Nat) : Nat → List (BDD m) → Nat → Nat
  | _, [], sum => sum
  | i, a :: rest, sum => sqLoopF rnd n (i + 1) rest (sqInnerF rnd n i a i (a :: rest) sum)

/-- `mean_squared_value`, `/repo/src/error_metrics/average_case_error.cpp:35-63`. -/
def meanSquaredValueF (rnd dec : ℚ → ℚ) (f : List (BDD m)) : Except Fault ℚ := do
  let q ← fdiv (sqLoopF rnd (maxSupportSize f) 0 f 0) (u256 (2 ^ maxSupportSize f))
  .ok (dec q)

/-- `average_case_error`, `/repo/src/error_metrics/average_case_error.cpp:65-74`. -/
def averageCaseErrorF (rnd dec : ℚ → ℚ) (r : NumRep) (f fHat : List (BDD m)) : Except Fault ℚ := do
  let d ← bddAbsoluteDifference r f fHat
  averageValueF rnd dec d

/-- `mean_squared_error`, `/repo/src/error_metrics/average_case_error.cpp:76-85`. -/
def meanSquaredErrorF (rnd dec : ℚ → ℚ) (r : NumRep) (f fHat : List (BDD m)) : Except Fault ℚ := do
  let d ← bddAbsoluteDifference r f fHat
  meanSquaredValueF rnd dec d

/-- `worst_case_error_percent`, `/repo/src/error_metrics/worst_case_error.cpp:59-66`. The conversion of the `uint256_t`
rounds to a nearest `double`, as do the subtraction and the division. -/
def worstCaseErrorPercentF (rnd : ℚ → ℚ) (r : NumRep) (f fHat : List (BDD m)) : Except Fault ℚ := do
  let wce ← worstCaseError r f fHat
  let p ← pow2 f.length
  let q ← fdiv (rnd wce) (rnd (p - 1))
  .ok (rnd q)

/-- `error_rate`, `/repo/src/error_metrics/error_rate.cpp:10-29`; without any function the divisor is infinite. -/
def errorRateF (rnd : ℚ → ℚ) (f fHat : List (BDD m)) : Except Fault ℚ := do
  let miter ← miterLoop f fHat .zero
  let numVariables := (terminalLevel [f, fHat] + 2 ^ 32 - 1) % 2 ^ 32
  if numVariables = 2 ^ 32 - 1 then .ok 0 else
  let p ← pow2 numVariables
  let q ← fdiv (countMintermF rnd miter numVariables) p
  .ok (rnd q)

/-- Loop of `average_bit_flip_error`, `/repo/src/error_metrics/average_bit_flip_error.cpp:24-28`: every addition to
`result` is rounded. -/
def bitFlipLoopF (rnd : ℚ → ℚ) (n : Nat) : List (BDD m) → List (BDD m) → ℚ → ℚ
  | a :: as, b :: bs, result => bitFlipLoopF rnd n as bs (rnd (result + countMintermF rnd (a.xor b) n))
  | _, _, result => result

/-- `average_bit_flip_error`, `/repo/src/error_metrics/average_bit_flip_error.cpp:9-32`. -/
def averageBitFlipErrorF (rnd : ℚ → ℚ) (f fHat : List (BDD m)) : Except Fault ℚ :=
  if f.length ≠ fHat.length then .error .assertion
  else do
    let n := maxSupportSize (f ++ fHat)
    let p ← pow2 n
    let q ← fdiv (bitFlipLoopF rnd n f fHat 0) p
    .ok (rnd q)

end Verif

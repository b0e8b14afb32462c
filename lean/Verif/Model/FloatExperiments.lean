import Verif.Model.FloatBucket
import Verif.Model.FloatMetrics
import Verif.Model.FloatOperators
import Verif.Model.Experiments

/-!
# The minimisation helper and its experiments on `double`s

`metric_function`, `bucket_minimize_helper` and the programs in `experiments/minimization/bucket` with the metrics of
`Verif.Model.FloatMetrics`, the operators of `Verif.Model.FloatOperators` and the coordinates of
`Verif.Model.FloatBucket`. Simplification: integers are converted to the nearest `double`; the relative errors and the
worst-case number of bit flips, which are computed on ADDs, stay exact here; `Verif.Model.FloatAddBucket` rounds them.
They are not used by the experiments.
-/

namespace Verif

variable {m : Mgr}

/-- The conversion of a `cpp_dec_float_100` to `double`, used in
`/repo/src/minimization/bucket_minimization.cpp:323-326`: Boost writes the number with 18 decimal digits and reads the
nearest `double` to that. -/
structure DecToDouble (rnd cv : ℚ → ℚ) : Prop where
  conv : ∀ q, |q| ≤ 2 ^ 1000 → ∃ q', |q' - q| ≤ |q| / 10 ^ 17 ∧ cv q = rnd q'

/-- `metric_function`, `/repo/src/minimization/bucket_minimization.cpp:304-354`: `rnd` rounds `double`s, `dec` the
quotients of `cpp_dec_float_100`s, `cv` converts those to `double`. -/
def metricFunctionF (rnd dec cv : ℚ → ℚ) (metric : ErrorMetric) (orig approx : List (BDD m)) : Except Fault ℚ :=
  match metric with
  | .worstCase => do let v ← worstCaseError .baseTwo orig approx; .ok (rnd v)
  | .worstCasePercent => worstCaseErrorPercentF rnd .baseTwo orig approx
  | .averageCase => do let v ← averageCaseErrorF rnd dec .baseTwo orig approx; .ok (cv v)
  | .meanSquared => do let v ← meanSquaredErrorF rnd dec .baseTwo orig approx; .ok (cv v)
  | .errorRate => errorRateF rnd orig approx
  | .averageBitFlip => averageBitFlipErrorF rnd orig approx
  | metric => metricFunction metric orig approx

/-- The construction of the metric dimensions, `/repo/src/minimization/minimization_helper.cpp:62-70`. -/
def metricDimsF (rnd dec cv : ℚ → ℚ) : List SimpleMetricDim → List (MetricDim m)
  | [] => []
  | d :: ds => ⟨d.gridSize, metricFunctionF rnd dec cv d.metric, d.bound⟩ :: metricDimsF rnd dec cv ds

/-- `bucket_minimize_helper`, `/repo/src/minimization/minimization_helper.cpp:59-105`. -/
def bucketMinimizeHelperF (rnd dec cv : ℚ → ℚ) (asserts : Bool) (fuel : Nat) (files : String → List AigEvent × Bool)
    (rs : Nat → Nat) (info : MinimizationInfo) : Except Fault (MinimizationResult m) := do
  let function ← loadInput asserts files info.input
  let ops ← operatorFunctionsF rnd function info rs
  let buckets ← bucketGreedyMinimizeF rnd fuel function (metricDimsF rnd dec cv info.metrics) ops
    info.populateAllBuckets
  let smallest ← minBucket buckets
  .ok ⟨nodeCount function, smallest, buckets⟩

/-- `format_time`, `/repo/src/minimization/minimization_helper.cpp:107-121`, with the quotients rounded. -/
def formatTimeF (rnd : ℚ → ℚ) (milliseconds : ℚ) : Except Fault (List Char) :=
  if milliseconds < 1000 then do
    let i ← toInt milliseconds
    .ok (intToString i ++ " ms".toList)
  else if milliseconds < 300000 then do
    let i ← toInt (rnd (milliseconds / 1000))
    .ok (intToString i ++ " s".toList)
  else do
    let i ← toInt (rnd (milliseconds / 60000))
    .ok (intToString i ++ " m".toList)

/-- `main`, `/repo/experiments/minimization/bucket/minimize_adders.cpp:10-63`. -/
def minimizeAddersMainF (rnd dec cv : ℚ → ℚ) (asserts : Bool) (fuel : Nat) (files : String → List AigEvent × Bool)
    (rs : Nat → Nat) (m : Mgr) : Except Fault ((Nat × Nat × ℚ × ℚ) × List (List Nat × Option (Nat × ℚ × ℚ))) := do
  let result ← bucketMinimizeHelperF (m := m) rnd dec cv asserts fuel files rs adderMinimizationInfo
  let er ← vget result.smallestFunction.metricValues 0
  let ace ← vget result.smallestFunction.metricValues 1
  let rows ← bucketRows 0 result.allBuckets
  .ok ((result.originalSize, result.smallestFunction.bddSize, er, ace), rows)

/-- A row, `/repo/experiments/minimization/bucket/minimize_iscas.cpp:19-36` and
`/repo/experiments/minimization/bucket/minimize_epfl.cpp:17-35`. -/
def minimizeCircuitRowF (rnd dec cv : ℚ → ℚ) (asserts : Bool) (fuel : Nat) (files : String → List AigEvent × Bool)
    (rs : Nat → Nat) (filepath filename : Nat → Except Fault String) (file : Nat) (m : Mgr) :
    Except Fault (String × Nat × Nat × ℚ) := do
  let path ← filepath file
  let res ← bucketMinimizeHelperF (m := m) rnd dec cv asserts fuel files rs (circuitMinimizationInfo path)
  let name ← filename file
  let er ← vget res.smallestFunction.metricValues 0
  .ok (name, res.originalSize, res.smallestFunction.bddSize, er)

end Verif

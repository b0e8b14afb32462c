import Verif.Model.Benchmark
import Verif.Model.FloatAdd
import Verif.Model.FloatExperiments
import Verif.Model.FloatRelative
import Verif.Model.Experiments

/-!
# `compute_error_metric` with `double`s

`/repo/experiments/util/benchmark_util.cpp:40-84` once more, with the metrics of `Verif.Model.FloatMetrics`,
`Verif.Model.FloatAdd` and `Verif.Model.FloatRelative`. The constants of the ADDs stay in the manager from one metric to
the next.
-/

namespace Verif

variable {m : Mgr}

/-- A metric that makes no ADD constants leaves the table as it is, `/repo/experiments/util/benchmark_util.cpp:40-84`. -/
def keepTab (s : CTab) (e : Except Fault ℚ) : Except Fault (ℚ × CTab) := do
  let v ← e
  .ok (v, s)

/-- The middle of two bounds, computed with `cpp_dec_float_100` and converted,
`/repo/experiments/util/benchmark_util.cpp:49` and `79`. -/
def middleF (dec cv : ℚ → ℚ) (bounds : ℚ × ℚ) : ℚ := cv (dec (dec (bounds.1 + bounds.2) / 2))

/-- `compute_error_metric`, `/repo/experiments/util/benchmark_util.cpp:40-84`: `A.rnd` rounds `double`s, `dec` rounds
`cpp_dec_float_100`s, `cv` converts those to `double`, `lg` is the logarithm. Integers are converted to the nearest
`double`. -/
def computeErrorMetricF (A : AddEnv) (dec cv lg : ℚ → ℚ) (readSize : Nat) (rs : Nat → Nat → Nat → Nat) (fuel : Nat)
    (original approx : List (BDD m)) (metric : BenchMetric) (s : CTab) : Except Fault (ℚ × CTab) :=
  match metric with
  | .worstCase => keepTab s (do let v ← worstCaseError .baseTwo original approx; .ok (A.rnd v))
  | .worstCaseRelativeApprox => keepTab s (do
      let bounds ← wcreBoundsF A.rnd dec .baseTwo original approx
      .ok (middleF dec cv bounds))
  | .worstCaseRelativeBinarySearch =>
      keepTab s (wcreSearchF A.rnd lg .baseTwo original approx 16 (A.rnd (1 / 10000)) fuel)
  | .worstCaseRelativeRandomized => keepTab s (do
      let fraction ← wcreRandomizedSearchF A.rnd lg .baseTwo original approx readSize 1 rs fuel
      let q ← fdiv (A.rnd fraction.1) (A.rnd fraction.2)
      .ok (A.rnd q))
  | .worstCaseRelativeAdd => wcreAddE A .baseTwo original approx s
  | .worstCaseRelativeSymbolic => keepTab s (do
      let v ← wcreSymbolicDivisionF dec .baseTwo original approx 16
      .ok (cv v))
  | .averageCase => keepTab s (do let v ← averageCaseErrorF A.rnd dec .baseTwo original approx; .ok (cv v))
  | .meanSquared => keepTab s (do let v ← meanSquaredErrorF A.rnd dec .baseTwo original approx; .ok (cv v))
  | .errorRate => keepTab s (errorRateF A.rnd original approx)
  | .averageBitFlip => keepTab s (averageBitFlipErrorF A.rnd original approx)
  | .worstCaseBitFlip => do
      let v ← worstCaseBitFlipErrorE A original approx s
      .ok (A.rnd v.1, v.2)
  | .approximateWorstCase5 => keepTab s (do
      let v ← approximateWorstCaseError .baseTwo original approx 5
      .ok (A.rnd v))
  | .averageRelativeAdd => do
      let v ← acreAddE A dec .baseTwo approx original s
      .ok (cv v.1, v.2)
  | .averageRelativeApprox => keepTab s (do
      let bounds ← acreBoundsF A.rnd dec .baseTwo approx original
      .ok (middleF dec cv bounds))

/-- Several measurements with one manager, as `/repo/experiments/misc/er_ace_adder_comparison.cpp:18-23` and the loops of
`/repo/experiments/runtime` do it with `/repo/experiments/util/benchmark_util.cpp:40`. -/
def runMetricsF (A : AddEnv) (dec cv lg : ℚ → ℚ) (readSize : Nat) (rs : Nat → Nat → Nat → Nat) (fuel : Nat) :
    List (List (BDD m) × List (BDD m) × BenchMetric) → CTab → Except Fault (List ℚ × CTab)
  | [], s => .ok ([], s)
  | (original, approx, metric) :: calls, s => do
      let v ← computeErrorMetricF A dec cv lg readSize rs fuel original approx metric s
      let vs ← runMetricsF A dec cv lg readSize rs fuel calls v.2
      .ok (v.1 :: vs.1, vs.2)

/-- `generate_adders`, `/repo/experiments/runtime/approximate_adder_error_metrics.cpp:10-32`, and `acr_adders`,
`/repo/experiments/runtime/acr_approx.cpp:10-31`: one iteration. -/
def measureAdderF (A : AddEnv) (dec cv lg : ℚ → ℚ) (asserts : Bool) (rs : Nat → Nat → Nat → Nat) (fuel : Nat)
    (metric : BenchMetric) (adder : ApproxAdder) (bits par1 par2 : Nat) (s : CTab) :
    Except Fault (List (BDD m) × List (BDD m) × ℚ × CTab) := do
  let correct ← regularAdder bits
  let approximate ← getApproximateAdder asserts adder bits par1 par2
  let q ← computeErrorMetricF A dec cv lg (2 * bits) rs fuel correct approximate metric s
  .ok (correct, approximate, q.1, q.2)

/-- `generate_adders`, `/repo/experiments/misc/er_ace_adder_comparison.cpp:10-25`: name, error rate, average-case and
worst-case error of a row. -/
def adderComparisonRowF (A : AddEnv) (dec cv lg : ℚ → ℚ) (asserts : Bool) (rs : Nat → Nat → Nat → Nat) (fuel : Nat)
    (adder : ApproxAdder) (bits par1 par2 : Nat) (m : Mgr) (s : CTab) : Except Fault (List Char × ℚ × ℚ × ℚ) := do
  let correct ← regularAdder (m := m) bits
  let approximate ← getApproximateAdder asserts adder bits par1 par2
  let er ← computeErrorMetricF A dec cv lg (2 * bits) rs fuel correct approximate .errorRate s
  let ace ← computeErrorMetricF A dec cv lg (2 * bits) rs fuel correct approximate .averageCase er.2
  let wc ← computeErrorMetricF A dec cv lg (2 * bits) rs fuel correct approximate .worstCase ace.2
  .ok (approximateAdderName adder bits par1 par2, er.1, ace.1, wc.1)

end Verif

import Verif.Model.Benchmark
import Verif.Model.Nsga
import Verif.Model.Papers

/-!
# The executables of `/repo/experiments`

What they compute and, for the ones that print a table, its rows.  Left out: timing, the iterations of the
benchmark library (every iteration computes the same), garbage collection, and the text around the figures.
The variables of the manager of an experiment are those of the functions (`readSize`).  Levels and sample counts
are `int64_t` converted to the types of the parameters; they are natural numbers here.
-/

namespace Verif

variable {m : Mgr}

/-- The loops over the outputs, e.g. `/repo/experiments/runtime/iscas85.cpp:43-59`. -/
def roundOutputs (op : BDD m → Except Fault (BDD m)) : List (BDD m) → Except Fault (List (BDD m))
  | [] => .ok []
  | orig :: rest => do
      let r ← op orig
      let rs ← roundOutputs op rest
      .ok (r :: rs)

/-- `enum RoundingOperation`, `/repo/experiments/runtime/iscas85.cpp:9-14`. -/
inductive IscasRounding
  | roundUp
  | roundDown
  | roundFull
  deriving DecidableEq, Repr

/-- The switch in the loop, `/repo/experiments/runtime/iscas85.cpp:45-58`. -/
def iscasRound (op : IscasRounding) (level : Nat) (orig : BDD m) : Except Fault (BDD m) :=
  match op with
  | .roundUp => supersetHeavyChild orig level 10000
  | .roundDown => subsetLightChild orig level 10000
  | .roundFull => roundBdd orig level

/-- The names of the operations, `/repo/experiments/runtime/iscas85.cpp:26-31`. -/
def iscasRoundingText : IscasRounding → String
  | .roundUp => "round up"
  | .roundDown => "round down"
  | .roundFull => "round"

/-- The label of a measurement, `/repo/experiments/runtime/iscas85.cpp:32-33`. -/
def iscasLabel (metric : BenchMetric) (file : Nat) (op : IscasRounding) (level : Nat) : Except Fault (List Char) := do
  let name ← iscasFilename file
  .ok (name.toList ++ "(".toList ++ (iscasRoundingText op).toList ++ "->".toList ++ Nat.toDigits 10 (level + 1) ++
    ") - ".toList ++ (errorMetricName metric).toList)

/-- `benchmark_iscas85`, `/repo/experiments/runtime/iscas85.cpp:17-64`: one iteration. -/
def benchmarkIscas85 (asserts : Bool) (files : String → List AigEvent × Bool) (readSize : Nat)
    (rs : Nat → Nat → Nat → Nat) (fuel : Nat) (metric : BenchMetric) (file : Nat) (op : IscasRounding) (level : Nat) :
    Except Fault (List (BDD m) × List (BDD m) × ℚ) := do
  let original ← loadIscas asserts files file
  let rounded ← roundOutputs (iscasRound op level) original
  let q ← computeErrorMetric readSize rs fuel original rounded metric
  .ok (original, rounded, q)

/-- The arguments, `/repo/experiments/runtime/iscas85.cpp:67-94`. -/
def iscas85Args : List (BenchMetric × Nat × IscasRounding × Nat) :=
  [.errorRate, .worstCase, .averageCase].flatMap fun metric =>
    [(metric, 1, .roundDown, 34), (metric, 1, .roundUp, 34), (metric, 1, .roundFull, 34),
     (metric, 2, .roundDown, 39), (metric, 2, .roundDown, 35), (metric, 2, .roundUp, 39), (metric, 2, .roundUp, 35),
     (metric, 2, .roundFull, 39), (metric, 2, .roundFull, 35),
     (metric, 4, .roundDown, 39), (metric, 4, .roundUp, 39),
     (metric, 5, .roundDown, 31), (metric, 5, .roundDown, 26), (metric, 5, .roundDown, 22),
     (metric, 5, .roundUp, 31), (metric, 5, .roundUp, 26), (metric, 5, .roundUp, 22),
     (metric, 5, .roundFull, 31), (metric, 5, .roundFull, 26), (metric, 5, .roundFull, 22)]

/-- `benchmark_ace`, `/repo/experiments/runtime/average_case_error.cpp:10-54`: one iteration. -/
def benchmarkAce (asserts : Bool) (files : String → List AigEvent × Bool) (readSize : Nat)
    (rs : Nat → Nat → Nat → Nat) (fuel : Nat) (file level : Nat) (up : Bool) :
    Except Fault (List (BDD m) × List (BDD m) × ℚ) := do
  let original ← loadIscas asserts files file
  let rounded ← roundOutputs (fun orig =>
    if up then supersetLightChild orig level 10000 else subsetLightChild orig level 10000) original
  let q ← computeErrorMetric readSize rs fuel original rounded .averageCase
  .ok (original, rounded, q)

/-- The label, `/repo/experiments/runtime/average_case_error.cpp:18-19`. -/
def aceLabel (file level : Nat) (up : Bool) : Except Fault (List Char) := do
  let name ← iscasFilename file
  .ok (name.toList ++ (if up then "(round_up->" else "(round_down->").toList ++ Nat.toDigits 10 (level + 1) ++
    ")".toList)

/-- The arguments, `/repo/experiments/runtime/average_case_error.cpp:56-60`. -/
def aceArgs : List (Nat × Nat × Bool) := [(1, 35, true), (2, 36, false), (5, 32, true)]

/-- The label, `/repo/experiments/runtime/ace_steps.cpp:19-20`. -/
def aceStepsLabel (file level : Nat) (differenceOnly : Bool) : Except Fault (List Char) := do
  let name ← iscasFilename file
  .ok (name.toList ++ "(round_up->".toList ++ Nat.toDigits 10 level ++ "),".toList ++
    (if differenceOnly then "difference" else "ace").toList)

/-- `benchmark_ace_steps`, `/repo/experiments/runtime/ace_steps.cpp:12-56`: one iteration; the absolute difference and,
unless `differenceOnly`, its average. -/
def benchmarkAceSteps (asserts : Bool) (files : String → List AigEvent × Bool) (file level : Nat)
    (differenceOnly : Bool) : Except Fault (List (BDD m) × List (BDD m) × List (BDD m) × Option ℚ) := do
  let original ← loadIscas asserts files file
  let rounded ← roundOutputs (fun orig => supersetHeavyChild orig level 10000) original
  let difference ← bddSubtract (original ++ [.zero]) (rounded ++ [.zero])
  let absdiff ← bddAbs .twosComplement difference
  if differenceOnly then .ok (original, rounded, absdiff, none)
  else do
    let q ← averageValue absdiff
    .ok (original, rounded, absdiff, some q)

/-- The switch in the loop, `/repo/experiments/runtime/operators.cpp:52-83`, over `enum RoundingOperation`, lines
9-19, for which the `Operator` of the bucket minimisation is used here. -/
def operatorRound (op : Operator) (level : Nat) (orig : BDD m) : Except Fault (BDD m) :=
  match op with
  | .supersetHeavy => supersetHeavyChild orig level level
  | .subsetLight => subsetLightChild orig level level
  | .supersetLight => supersetLightChild orig level level
  | .subsetHeavy => subsetHeavyChild orig level level
  | .roundBest => roundBest orig level level
  | .round => roundBdd orig level
  | .positiveCofactor => .ok (cofactor orig level true)
  | .negativeCofactor => .ok (cofactor orig level false)

/-- The names of the operations, `/repo/experiments/runtime/operators.cpp:29-39`. -/
def operatorText : Operator → String
  | .supersetHeavy => "superset-heavy"
  | .subsetLight => "subset-light"
  | .supersetLight => "superset-light"
  | .subsetHeavy => "subset-heavy"
  | .round => "round"
  | .roundBest => "round_best"
  | .positiveCofactor => "cof+"
  | .negativeCofactor => "cof-"

/-- The label, `/repo/experiments/runtime/operators.cpp:40`. -/
def operatorLabel (file : Nat) (op : Operator) (level : Nat) : Except Fault (List Char) := do
  let name ← iscasFilename file
  .ok (name.toList ++ "(".toList ++ (operatorText op).toList ++ "->".toList ++ Nat.toDigits 10 (level + 1) ++
    ")".toList)

/-- `benchmark_operators`, `/repo/experiments/runtime/operators.cpp:22-86`: one iteration. -/
def benchmarkOperators (asserts : Bool) (files : String → List AigEvent × Bool) (file : Nat) (op : Operator)
    (level : Nat) : Except Fault (List (BDD m) × List (BDD m)) := do
  let original ← loadIscas asserts files file
  let rounded ← roundOutputs (operatorRound op level) original
  .ok (original, rounded)

/-- The label, `/repo/experiments/runtime/sampling_methods.cpp:22-28`. -/
def samplingLabel (improved : Bool) (samples file : Nat) : Except Fault (List Char) := do
  let name ← iscasFilename file
  .ok (name.toList ++ " - ".toList ++ (if improved then "improved sampling" else "regular sampling").toList ++
    ": ".toList ++ Nat.toDigits 10 samples)

/-- `benchmark_sampling_methods`, `/repo/experiments/runtime/sampling_methods.cpp:16-57`: one iteration, `improved` being
the method; `acts` is the sorted list of activations of the improved sampling. -/
def benchmarkSampling (asserts : Bool) (files : String → List AigEvent × Bool) (readSize : Nat) (improved : Bool)
    (samples : Int) (file : Nat) (acts : List (Nat × ℚ)) (rs : Nat → Nat → Nat) (rs' : Nat → Nat → Nat → Nat) :
    Except Fault (List (BDD m) × ℚ) := do
  let original ← loadIscas asserts files file
  let rounded := original.map (fun _ => BDD.zero)
  let q ← if improved then errorRateEfficientSampling original rounded readSize samples acts rs'
    else errorRateSampling original rounded readSize samples rs
  .ok (original, q)

/-- The numbers of samples, `/repo/experiments/runtime/sampling_methods.cpp:60`. -/
def samplingCounts : List Nat := [1, 10, 100, 1000, 10000, 100000, 1000000]

/-- The loop of `main`, `/repo/experiments/misc/improved_sampling.cpp:32-38`: the rows from `n` on; `rs n` and `rs' n` are
the random numbers of the two calls. -/
def improvedSamplingRows (original rounded : List (BDD m)) (readSize : Nat) (acts : List (Nat × ℚ))
    (rs : Nat → Nat → Nat → Nat) (rs' : Nat → Nat → Nat → Nat → Nat) : Nat → Nat → Except Fault (List (Nat × ℚ × ℚ))
  | 0, _ => .ok []
  | k + 1, n =>
      if n ≤ 20000 then do
        let naive ← errorRateSampling original rounded readSize n (rs n)
        let improved ← errorRateEfficientSampling original rounded readSize n acts (rs' n)
        let rows ← improvedSamplingRows original rounded readSize acts rs rs' k (n + 100)
        .ok ((n, naive, improved) :: rows)
      else .ok []

/-- `main`, `/repo/experiments/misc/improved_sampling.cpp:10-41`: the number of outputs, the error rate and the rows (at
most 201 tests of the loop condition).  `acts` is the list of activations for given functions. -/
def improvedSamplingMain (asserts : Bool) (files : String → List AigEvent × Bool) (readSize : Nat)
    (acts : List (BDD m) → List (BDD m) → List (Nat × ℚ)) (rs : Nat → Nat → Nat → Nat)
    (rs' : Nat → Nat → Nat → Nat → Nat) : Except Fault (List (BDD m) × List (BDD m) × Nat × ℚ × List (Nat × ℚ × ℚ)) := do
  let original ← loadIscas asserts files 3
  let rounded ← roundOutputs (fun orig => subsetLightChild orig 52 10000000) original
  let rate ← errorRate original rounded
  let rows ← improvedSamplingRows original rounded readSize (acts original rounded) rs rs' 201 100
  .ok (original, rounded, original.length, rate, rows)

/-- `generate_adders`, `/repo/experiments/runtime/approximate_adder_error_metrics.cpp:10-32`, and `acr_adders`,
`/repo/experiments/runtime/acr_approx.cpp:10-31` (with the metric `AVERAGE_RELATIVE_APPROX`): one iteration. -/
def measureAdder (asserts : Bool) (rs : Nat → Nat → Nat → Nat) (fuel : Nat) (metric : BenchMetric) (adder : ApproxAdder)
    (bits par1 par2 : Nat) : Except Fault (List (BDD m) × List (BDD m) × ℚ) := do
  let correct ← regularAdder bits
  let approximate ← getApproximateAdder asserts adder bits par1 par2
  let q ← computeErrorMetric (2 * bits) rs fuel correct approximate metric
  .ok (correct, approximate, q)

/-- The label of a measurement, `/repo/experiments/runtime/approximate_adder_error_metrics.cpp:16-20`. -/
def adderTableLabel (metric : BenchMetric) (adder : ApproxAdder) (bits par1 par2 : Nat) : List Char :=
  approximateAdderName adder bits par1 par2 ++ " - ".toList ++ (errorMetricName metric).toList

/-- The metrics measured, `/repo/experiments/runtime/approximate_adder_error_metrics.cpp:36-40`. -/
def adderTableMetrics : List BenchMetric :=
  [.worstCase, .worstCaseRelativeApprox, .averageCase, .averageRelativeApprox, .meanSquared, .errorRate,
    .averageBitFlip, .worstCaseBitFlip]

/-- The adders measured, `/repo/experiments/runtime/approximate_adder_error_metrics.cpp:41-83`. -/
def adderTableAdders : List (ApproxAdder × Nat × Nat × Nat) :=
  [(.aca1, 8, 5, 0), (.aca2, 8, 4, 0), (.gda, 8, 4, 2), (.gda, 8, 4, 4), (.gda, 8, 8, 1), (.gda, 8, 8, 2),
    (.gda, 8, 8, 3), (.gda, 8, 8, 4), (.gda, 8, 8, 5), (.gear, 8, 1, 1), (.gear, 8, 1, 2), (.gear, 8, 1, 3),
    (.gear, 8, 1, 4), (.gear, 8, 1, 5), (.gear, 8, 2, 2), (.gear, 8, 2, 4),
    (.aca1, 16, 4, 0), (.aca2, 16, 4, 0), (.aca2, 16, 8, 0), (.gda, 16, 4, 4), (.gda, 16, 4, 8), (.gear, 16, 2, 4),
    (.gear, 16, 4, 4), (.gear, 16, 4, 8), (.gear, 16, 6, 4),
    (.aca1, 32, 8, 0), (.aca1, 32, 16, 0)]

/-- The adders measured, `/repo/experiments/runtime/acr_approx.cpp:33-43`. -/
def acrTableAdders : List (ApproxAdder × Nat × Nat × Nat) :=
  [(.aca1, 8, 5, 0), (.aca2, 8, 4, 0), (.gear, 8, 1, 5), (.gear, 8, 2, 2), (.aca1, 16, 4, 0), (.aca2, 16, 4, 0),
    (.aca2, 16, 8, 0), (.aca1, 32, 8, 0), (.aca2, 32, 16, 0)]

/-- `generate_adders`, `/repo/experiments/misc/er_ace_adder_comparison.cpp:10-25`: name, error rate, average-case and
worst-case error of a row. -/
def adderComparisonRow (asserts : Bool) (rs : Nat → Nat → Nat → Nat) (fuel : Nat) (adder : ApproxAdder)
    (bits par1 par2 : Nat) (m : Mgr) : Except Fault (List Char × ℚ × ℚ × ℚ) := do
  let correct ← regularAdder (m := m) bits
  let approximate ← getApproximateAdder asserts adder bits par1 par2
  let er ← computeErrorMetric (2 * bits) rs fuel correct approximate .errorRate
  let ace ← computeErrorMetric (2 * bits) rs fuel correct approximate .averageCase
  let wc ← computeErrorMetric (2 * bits) rs fuel correct approximate .worstCase
  .ok (approximateAdderName adder bits par1 par2, er, ace, wc)

/-- The rows of `main`, `/repo/experiments/misc/er_ace_adder_comparison.cpp:35-38`. -/
def adderComparisonRows : List (ApproxAdder × Nat × Nat × Nat) :=
  [(.gear, 16, 6, 4), (.gear, 16, 4, 4), (.gear, 16, 4, 8), (.gear, 16, 2, 4)]

/-- The last line of `main`, `/repo/experiments/misc/er_ace_adder_comparison.cpp:49-55`. -/
def adderComparisonLast (m : Mgr) : Except Fault ℚ :=
  let zero : List (BDD m) := [.var 0, .var 1, .var 2]
  let one : List (BDD m) := [(BDD.var 0).or ((BDD.var 2).and (.var 1)), .var 1, .var 2]
  averageCaseError .baseTwo one zero

/-- The `double` for the literal `0.05` of the minimisation experiments. -/
def double005 : ℚ := 3602879701896397 / 2 ^ 56

/-- `info`, `/repo/experiments/minimization/bucket/minimize_adders.cpp:21-31`, for `bits = 8` and `ace_limit = 7`. -/
def adderMinimizationInfo : MinimizationInfo where
  input := "adder8"
  metrics := [⟨20, .errorRate, double005⟩, ⟨20, .averageCase, 7⟩]
  operators := [.positiveCofactor, .negativeCofactor]

/-- A row of the table of buckets, `/repo/experiments/minimization/bucket/minimize_adders.cpp:44-57`: the indices and,
unless the bucket is empty, size and metric values. -/
def bucketRow (i : Nat) (bucket : Bucket m) : Except Fault (List Nat × Option (Nat × ℚ × ℚ)) := do
  let idxs ← createIndex i [20, 20]
  if bucket.isEmpty then .ok (idxs, none)
  else do
    let a ← vget bucket.metricValues 0
    let b ← vget bucket.metricValues 1
    .ok (idxs, some (bucket.bddSize, a, b))

/-- The loop over the buckets, `/repo/experiments/minimization/bucket/minimize_adders.cpp:41-60`. -/
def bucketRows : Nat → List (Bucket m) → Except Fault (List (List Nat × Option (Nat × ℚ × ℚ)))
  | _, [] => .ok []
  | i, bucket :: rest => do
      let row ← bucketRow i bucket
      let rows ← bucketRows (i + 1) rest
      .ok (row :: rows)

/-- `main`, `/repo/experiments/minimization/bucket/minimize_adders.cpp:10-63`: the line of figures and the table. -/
def minimizeAddersMain (asserts : Bool) (fuel : Nat) (files : String → List AigEvent × Bool) (rs : Nat → Nat) (m : Mgr) :
    Except Fault ((Nat × Nat × ℚ × ℚ) × List (List Nat × Option (Nat × ℚ × ℚ))) := do
  let result ← bucketMinimizeHelper (m := m) asserts fuel files rs adderMinimizationInfo
  let er ← vget result.smallestFunction.metricValues 0
  let ace ← vget result.smallestFunction.metricValues 1
  let rows ← bucketRows 0 result.allBuckets
  .ok ((result.originalSize, result.smallestFunction.bddSize, er, ace), rows)

/-- `info`, `/repo/experiments/minimization/bucket/minimize_iscas.cpp:21-28` and
`/repo/experiments/minimization/bucket/minimize_epfl.cpp:20-26`. -/
def circuitMinimizationInfo (path : String) : MinimizationInfo where
  input := path
  metrics := [⟨10, .errorRate, double005⟩]
  operators := [.positiveCofactor, .negativeCofactor]

/-- A row, `/repo/experiments/minimization/bucket/minimize_iscas.cpp:19-36`; with `epflFilepath` and `epflFilename` a row of
`/repo/experiments/minimization/bucket/minimize_epfl.cpp:17-35`. -/
def minimizeCircuitRow (asserts : Bool) (fuel : Nat) (files : String → List AigEvent × Bool) (rs : Nat → Nat)
    (filepath filename : Nat → Except Fault String) (file : Nat) (m : Mgr) : Except Fault (String × Nat × Nat × ℚ) := do
  let path ← filepath file
  let res ← bucketMinimizeHelper (m := m) asserts fuel files rs (circuitMinimizationInfo path)
  let name ← filename file
  let er ← vget res.smallestFunction.metricValues 0
  .ok (name, res.originalSize, res.smallestFunction.bddSize, er)

/-- The files, `/repo/experiments/minimization/bucket/minimize_iscas.cpp:17-19` and
`/repo/experiments/minimization/bucket/minimize_epfl.cpp:17-18`. -/
def minimizeIscasFiles : List Nat := [1, 2, 3, 4, 5, 6, 7]
def minimizeEpflFiles : List Nat := [4, 0, 1, 2, 3, 5, 6, 7, 8, 9]

/-- A call of `run_genetic_minimization` with the initial population it draws first,
`/repo/experiments/minimization/nsga2/nsga2_minimization_helper.cpp:15-39`: 100 individuals with 3 random entries. -/
def geneticExperiment (fl : ℚ → ℚ) (rs : Nat → Nat) (function : List (BDD m)) (maxAce : ℚ) (both : Bool)
    (pops : Nat → List (List ℚ)) (fuel : Nat) : Except Fault GeneticResult := do
  let _ ← makePopulation function rs 3 100 0
  runGenetic fl function double005 maxAce both pops fuel

/-- A row of `main`, `/repo/experiments/minimization/nsga2/nsga2_minimize_adders.cpp:16-27`: bits, size, size found, error
rate and average-case error. -/
def nsgaAdderRow (fl : ℚ → ℚ) (rs : Nat → Nat) (bits : Nat) (maxAce : ℚ) (pops : Nat → List (List ℚ)) (fuel : Nat)
    (m : Mgr) : Except Fault (Nat × Nat × Nat × ℚ × ℚ) := do
  let function ← regularAdder (m := m) bits
  let result ← geneticExperiment fl rs function maxAce true pops fuel
  .ok (bits, nodeCount function, result.nodeCount, result.errorRate, result.ace)

/-- The rows of `main`, `/repo/experiments/minimization/nsga2/nsga2_minimize_adders.cpp:16`. -/
def nsgaAdderArgs : List (Nat × ℚ) := [(8, 7), (16, 35), (32, 9000)]

/-- A row of `main`, `/repo/experiments/minimization/nsga2/nsga2_minimize_iscas.cpp:18-35`: file, size, size found and error
rate.  The return code of `read_aiger` is not looked at. -/
def nsgaIscasRow (fl : ℚ → ℚ) (asserts : Bool) (files : String → List AigEvent × Bool) (rs : Nat → Nat) (file : String)
    (pops : Nat → List (List ℚ)) (fuel : Nat) (m : Mgr) : Except Fault (String × Nat × Nat × ℚ) := do
  let parser ← aigRun (m := m) asserts (files ("./iscas85/" ++ file ++ ".aig")).1 {}
  let function ← getOutputs parser
  let result ← geneticExperiment fl rs function 0 false pops fuel
  .ok (file, nodeCount function, result.nodeCount, result.errorRate)

/-- The files, `/repo/experiments/minimization/nsga2/nsga2_minimize_iscas.cpp:16`. -/
def nsgaIscasFiles : List String := ["c432", "c499", "c880", "c1355", "c1908", "c2670", "c3540"]

/-- A row of `main`, `/repo/experiments/minimization/nsga2/nsga2_minimize_epfl.cpp:19-38`. -/
def nsgaEpflRow (fl : ℚ → ℚ) (asserts : Bool) (files : String → List AigEvent × Bool) (rs : Nat → Nat) (file : Nat)
    (pops : Nat → List (List ℚ)) (fuel : Nat) (m : Mgr) : Except Fault (String × Nat × Nat × ℚ) := do
  let function ← loadEpfl (m := m) asserts files file
  let result ← geneticExperiment fl rs function 0 false pops fuel
  let name ← epflFilename file
  .ok (name, nodeCount function, result.nodeCount, result.errorRate)

/-- The files, `/repo/experiments/minimization/nsga2/nsga2_minimize_epfl.cpp:19-20`. -/
def nsgaEpflFiles : List Nat := [4, 0, 1, 2, 3, 5, 6, 7, 8, 9]

/-- `main`, `/repo/experiments/testing.cpp:11-31`: the functions drawn. -/
def testingMain (m : Mgr) : Except Fault (List (BDD m) × List (BDD m)) := do
  let f := runningExample
  let roundedUp ← roundOutputs (fun fi => roundUp fi 1 1) f
  .ok (roundedUp, f)

end Verif

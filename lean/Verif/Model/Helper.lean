import Verif.Model.Bucket
import Verif.Model.Metrics
import Verif.Model.AddHelpers
import Verif.Model.Adders
import Verif.Model.Parsing

/-!
# `src/minimization/minimization_helper.cpp` and the named metrics of `bucket_minimization.cpp`

Files are what `lorina::read_aiger` makes of them: for each name the callbacks and whether the return
code is `success`.  The manager (with the variable order it has once the input is loaded) is a
parameter of the model.  Time measurements are left out.
-/

namespace Verif

variable {m : Mgr}

/-- `metric_function`, `/repo/src/minimization/bucket_minimization.cpp:304-354`.  The number
representation is the default argument of the metrics. -/
def metricFunction (metric : ErrorMetric) (orig approx : List (BDD m)) : Except Fault ℚ :=
  match metric with
  | .worstCase => do let v ← worstCaseError .baseTwo orig approx; .ok v
  | .worstCasePercent => worstCaseErrorPercent .baseTwo orig approx
  | .worstCaseRelative => wcreAdd .baseTwo orig approx
  | .averageCase => averageCaseError .baseTwo orig approx
  | .averageCaseRelative => acreAdd .baseTwo orig approx
  | .averageCaseRelativeAdd => acreAdd .baseTwo orig approx
  | .meanSquared => meanSquaredError .baseTwo orig approx
  | .errorRate => errorRate orig approx
  | .averageBitFlip => averageBitFlipError orig approx
  | .worstCaseBitFlip => do let v ← worstCaseBitFlipError orig approx; .ok v

/-- `metric_to_string`, `/repo/src/minimization/bucket_minimization.cpp:284-302`. -/
def metricToString : ErrorMetric → String
  | .worstCase => "worst case"
  | .worstCasePercent => "worst case percent"
  | .worstCaseRelative => "worst case relative"
  | .averageCase => "average case"
  | .averageCaseRelative => "average case relative"
  | .averageCaseRelativeAdd => "acr - ADD"
  | .meanSquared => "mean squared"
  | .errorRate => "error rate"
  | .averageBitFlip => "average bit flip"
  | .worstCaseBitFlip => "worst case bit flip"

/-- `operator_to_string`, `/repo/src/minimization/bucket_minimization.cpp:356-371`. -/
def operatorToString : Operator → String
  | .round => "round"
  | .roundBest => "round best"
  | .supersetHeavy => "superset heavy"
  | .subsetLight => "subset light"
  | .supersetLight => "superset light"
  | .subsetHeavy => "subset heavy"
  | .positiveCofactor => "cof+"
  | .negativeCofactor => "cof-"

/-- `enum class OperatorConstructionMode`, `/repo/src/minimization/minimization_helper.hpp:11-19`. -/
inductive OpMode
  | singleBdd
  | multiBdd
  | random
  deriving DecidableEq, Repr

/-- `struct SimpleMetricDimension`, `/repo/src/minimization/minimization_helper.hpp:23-31`. -/
structure SimpleMetricDim where
  gridSize : Nat
  metric : ErrorMetric
  bound : ℚ

/-- `struct MinimizationInputInfo`, `/repo/src/minimization/minimization_helper.hpp:35-55`, with its
default member initialisers; `sift` only decides the variable order.  `num_operator_functions` has no
initialiser: `none` stands for not set. -/
structure MinimizationInfo where
  input : String
  metrics : List SimpleMetricDim
  operators : List Operator := [.negativeCofactor, .positiveCofactor]
  operatorMode : OpMode := .singleBdd
  numOperatorFunctions : Option Nat := none
  populateAllBuckets : Bool := false

/-- `struct MinimizationResult`, `/repo/src/minimization/minimization_helper.hpp:58-70`. -/
structure MinimizationResult (m : Mgr) where
  originalSize : Nat
  smallestFunction : Bucket m
  allBuckets : List (Bucket m)

/-- `load_adder`, `/repo/src/minimization/minimization_helper.cpp:11-15`. -/
def loadAdder (bits : Nat) : Except Fault (List (BDD m)) := regularAdder bits

/-- `load_file`, `/repo/src/minimization/minimization_helper.cpp:17-37`. -/
def loadFile (asserts : Bool) (files : String → List AigEvent × Bool) (file : String) :
    Except Fault (List (BDD m)) := do
  let parser ← aigRun asserts (files file).1 {}
  if (files file).2 then getOutputs parser else .error .invalidArgument

/-- `load_input`, `/repo/src/minimization/minimization_helper.cpp:39-57`. -/
def loadInput (asserts : Bool) (files : String → List AigEvent × Bool) (input : String) :
    Except Fault (List (BDD m)) :=
  if input = "adder8" then loadAdder 8
  else if input = "adder16" then loadAdder 16
  else if input = "adder32" then loadAdder 32
  else loadFile asserts files input

/-- The construction of the metric dimensions, `/repo/src/minimization/minimization_helper.cpp:62-70`. -/
def metricDims : List SimpleMetricDim → List (MetricDim m)
  | [] => []
  | d :: ds => ⟨d.gridSize, metricFunction d.metric, d.bound⟩ :: metricDims ds

/-- The construction of the operators, `/repo/src/minimization/minimization_helper.cpp:71-84`; `rs` is
the stream of the values of `rand()`. -/
def operatorFunctions (function : List (BDD m)) (info : MinimizationInfo) (rs : Nat → Nat) :
    Except Fault (List (OpFun m)) :=
  match info.operatorMode with
  | .singleBdd => .ok (generateSingleBddOperators function info.operators)
  | .multiBdd => .ok (generateMultiBddOperators function info.operators)
  | .random => match info.numOperatorFunctions with
    | some n => generateRandomOperators function info.operators rs n 0
    | none => .error .ub

/-- `std::min_element` by `bdd_size`, `/repo/src/minimization/minimization_helper.cpp:99-101`: the first
smallest bucket. -/
def minBucketLoop : Bucket m → List (Bucket m) → Bucket m
  | b, [] => b
  | b, c :: cs => if c.bddSize < b.bddSize then minBucketLoop c cs else minBucketLoop b cs

/-- The dereferenced result of `std::min_element`, `/repo/src/minimization/minimization_helper.cpp:99-101`. -/
def minBucket : List (Bucket m) → Except Fault (Bucket m)
  | [] => .error .ub
  | b :: bs => .ok (minBucketLoop b bs)

/-- `bucket_minimize_helper`, `/repo/src/minimization/minimization_helper.cpp:59-105`. -/
def bucketMinimizeHelper (asserts : Bool) (fuel : Nat) (files : String → List AigEvent × Bool)
    (rs : Nat → Nat) (info : MinimizationInfo) : Except Fault (MinimizationResult m) := do
  let function ← loadInput asserts files info.input
  let ops ← operatorFunctions function info rs
  let buckets ← bucketGreedyMinimize fuel function (metricDims info.metrics) ops info.populateAllBuckets
  let smallest ← minBucket buckets
  .ok ⟨nodeCount function, smallest, buckets⟩

/-- `static_cast<int>(double)`: truncates towards zero; undefined when the result does not fit. -/
def toInt (q : ℚ) : Except Fault Int :=
  let t := if 0 ≤ q then ⌊q⌋ else ⌈q⌉
  if t < -2 ^ 31 ∨ 2 ^ 31 ≤ t then .error .ub else .ok t

/-- `std::to_string(int)`. -/
def intToString (i : Int) : List Char :=
  if i < 0 then '-' :: Nat.toDigits 10 i.natAbs else Nat.toDigits 10 i.natAbs

/-- `format_time`, `/repo/src/minimization/minimization_helper.cpp:107-121`. -/
def formatTime (milliseconds : ℚ) : Except Fault (List Char) :=
  if milliseconds < 1000 then do
    let i ← toInt milliseconds
    .ok (intToString i ++ " ms".toList)
  else if milliseconds < 300000 then do
    let i ← toInt (milliseconds / 1000)
    .ok (intToString i ++ " s".toList)
  else do
    let i ← toInt (milliseconds / 60000)
    .ok (intToString i ++ " m".toList)

end Verif

import Verif.Model.Helper
import Verif.Model.Relative

/-!
# `/repo/experiments/util/benchmark_util.cpp`: what the experiments measure and load

`throw new std::logic_error(…)` throws a pointer; the model does not distinguish it from the exception.
The enumerations for the files are used as indices, so they are natural numbers here.
-/

namespace Verif

variable {m : Mgr}

/-- `enum class ErrorMetric`, `/repo/experiments/util/benchmark_util.hpp:10-26`. -/
inductive BenchMetric
  | worstCase
  | worstCaseRelativeApprox
  | worstCaseRelativeBinarySearch
  | worstCaseRelativeRandomized
  | worstCaseRelativeAdd
  | worstCaseRelativeSymbolic
  | approximateWorstCase5
  | averageCase
  | averageRelativeApprox
  | averageRelativeAdd
  | meanSquared
  | errorRate
  | averageBitFlip
  | worstCaseBitFlip
  deriving DecidableEq, Repr

/-- `error_metric_name`, `/repo/experiments/util/benchmark_util.cpp:16-38`. -/
def errorMetricName : BenchMetric → String
  | .worstCase => "worst case"
  | .worstCaseRelativeApprox => "worst case relative"
  | .worstCaseRelativeBinarySearch => "wcr binary search"
  | .worstCaseRelativeRandomized => "wcr randomized"
  | .worstCaseRelativeAdd => "wcr ADD"
  | .worstCaseRelativeSymbolic => "wcr symbolic"
  | .averageCase => "average case"
  | .meanSquared => "mean squared"
  | .errorRate => "error rate"
  | .averageBitFlip => "average bit flip"
  | .worstCaseBitFlip => "worst case bit flip"
  | .approximateWorstCase5 => "approximate worst case - 5 bit"
  | .averageRelativeAdd => "acr add"
  | .averageRelativeApprox => "acr approx"

/-- `compute_error_metric`, `/repo/experiments/util/benchmark_util.cpp:40-84`, with the default arguments of
the metrics.  `readSize` is the number of variables of the manager, `rs` and `fuel` the random numbers and
the budget of the searches.  The conversions to `double` are exact in the model. -/
def computeErrorMetric (readSize : Nat) (rs : Nat → Nat → Nat → Nat) (fuel : Nat)
    (original approx : List (BDD m)) (metric : BenchMetric) : Except Fault ℚ :=
  match metric with
  | .worstCase => do let v ← worstCaseError .baseTwo original approx; .ok v
  | .worstCaseRelativeApprox => do
      let bounds ← wcreBounds .baseTwo original approx
      .ok ((bounds.1 + bounds.2) / 2)
  | .worstCaseRelativeBinarySearch => wcreSearch .baseTwo original approx 16 (1 / 10000) fuel
  | .worstCaseRelativeRandomized => do
      let fraction ← wcreRandomizedSearch .baseTwo original approx readSize 1 rs fuel
      fdiv fraction.1 fraction.2
  | .worstCaseRelativeAdd => wcreAdd .baseTwo original approx
  | .worstCaseRelativeSymbolic => wcreSymbolicDivision .baseTwo original approx 16
  | .averageCase => averageCaseError .baseTwo original approx
  | .meanSquared => meanSquaredError .baseTwo original approx
  | .errorRate => errorRate original approx
  | .averageBitFlip => averageBitFlipError original approx
  | .worstCaseBitFlip => do let v ← worstCaseBitFlipError original approx; .ok v
  | .approximateWorstCase5 => do let v ← approximateWorstCaseError .baseTwo original approx 5; .ok v
  | .averageRelativeAdd => acreAdd .baseTwo approx original
  | .averageRelativeApprox => do
      let bounds ← acreBounds .baseTwo approx original
      .ok ((bounds.1 + bounds.2) / 2)

/-- `files[file_id]` with the check before it, `/repo/experiments/util/benchmark_util.cpp:92-98`,
`130-136`. -/
def fileById (files : List String) (id : Nat) : Except Fault String :=
  if id ≥ files.length then .error .logicError else vget files id

/-- `iscas_85_filename_by_id`, `/repo/experiments/util/benchmark_util.cpp:86-99`. -/
def iscasFilename (id : Nat) : Except Fault String :=
  fileById ["c17.aig", "c432.aig", "c499.aig", "c880.aig", "c1355.aig", "c1908.aig", "c2670.aig",
    "c3540.aig", "c5315.aig", "c6288.aig", "c7552.aig"] id

/-- `iscas_85_filepath_by_id`, `/repo/experiments/util/benchmark_util.cpp:101-104`. -/
def iscasFilepath (id : Nat) : Except Fault String := do
  let name ← iscasFilename id
  .ok ("./iscas85/" ++ name)

/-- `load_iscas_85_file`, `/repo/experiments/util/benchmark_util.cpp:106-122`; `files` as in `loadFile`. -/
def loadIscas (asserts : Bool) (files : String → List AigEvent × Bool) (id : Nat) :
    Except Fault (List (BDD m)) := do
  let path ← iscasFilepath id
  let parser ← aigRun asserts (files path).1 {}
  if (files path).2 then getOutputs parser else .error .invalidArgument

/-- `epfl_filename_by_id`, `/repo/experiments/util/benchmark_util.cpp:124-137`. -/
def epflFilename (id : Nat) : Except Fault String :=
  fileById ["adder.aig", "bar.aig", "div.aig", "hyp.aig", "log2.aig", "max.aig", "multiplier.aig",
    "sin.aig", "sqrt.aig", "square.aig"] id

/-- `epfl_filepath_by_id`, `/repo/experiments/util/benchmark_util.cpp:139-142`. -/
def epflFilepath (id : Nat) : Except Fault String := do
  let name ← epflFilename id
  .ok ("./epfl/" ++ name)

/-- `load_epfl_benchmark_file`, `/repo/experiments/util/benchmark_util.cpp:144-153`: the return code is not
looked at. -/
def loadEpfl (asserts : Bool) (files : String → List AigEvent × Bool) (id : Nat) :
    Except Fault (List (BDD m)) := do
  let path ← epflFilepath id
  let parser ← aigRun asserts (files path).1 {}
  getOutputs parser

/-- `enum class ApproximateAdder`, `/repo/experiments/util/benchmark_util.hpp:114-120`. -/
inductive ApproxAdder
  | aca1
  | aca2
  | gda
  | gear
  deriving DecidableEq, Repr

/-- `approximate_adder_name`, `/repo/experiments/util/benchmark_util.cpp:155-173`. -/
def approximateAdderName (adder : ApproxAdder) (bits par1 par2 : Nat) : List Char :=
  match adder with
  | .aca1 => "ACA_1_N".toList ++ Nat.toDigits 10 bits ++ "_Q".toList ++ Nat.toDigits 10 par1
  | .aca2 => "ACA_2_N".toList ++ Nat.toDigits 10 bits ++ "_Q".toList ++ Nat.toDigits 10 par1
  | .gda => "GDA_St_N".toList ++ Nat.toDigits 10 bits ++ "_M".toList ++ Nat.toDigits 10 par1 ++
      "_P".toList ++ Nat.toDigits 10 par2
  | .gear => "GeAr_N".toList ++ Nat.toDigits 10 bits ++ "_R".toList ++ Nat.toDigits 10 par1 ++
      "_P".toList ++ Nat.toDigits 10 par2

/-- The conversion of a `std::size_t` argument to an `unsigned int` parameter. -/
def narrow32 (n : Nat) : Nat := n % 2 ^ 32

/-- `get_approximate_adder`, `/repo/experiments/util/benchmark_util.cpp:175-189`. -/
def getApproximateAdder (asserts : Bool) (adder : ApproxAdder) (bits par1 par2 : Nat) :
    Except Fault (List (BDD m)) :=
  match adder with
  | .aca1 => almostCorrectAdder1 asserts (narrow32 bits) (narrow32 par1)
  | .aca2 => almostCorrectAdder2 asserts (narrow32 bits) (narrow32 par1)
  | .gda => gracefullyDegradingAdder (narrow32 bits) (narrow32 par1) (narrow32 par2)
  | .gear => genericAccuracyReconfigurableAdder (narrow32 bits) (narrow32 par1) (narrow32 par2)

end Verif

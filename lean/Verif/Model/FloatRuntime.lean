import Verif.Model.FloatBenchmark
import Verif.Model.FloatOperators
import Verif.Model.FloatSampling

/-!
# The runtime experiments on circuits with `double`s

`benchmark_iscas85`, `benchmark_ace`, `benchmark_ace_steps`, `benchmark_operators` and `benchmark_sampling_methods`
once more; with exact numbers they are in `Verif/Model/Experiments.lean`.
-/

namespace Verif

variable {m : Mgr}

/-- The switch in the loop, `/repo/experiments/runtime/iscas85.cpp:45-58`. -/
def iscasRoundF (rnd : ℚ → ℚ) (op : IscasRounding) (level : Nat) (orig : BDD m) : Except Fault (BDD m) :=
  match op with
  | .roundUp => roundAnyF rnd orig level 10000 true false
  | .roundDown => roundAnyF rnd orig level 10000 false true
  | .roundFull => roundBddF rnd orig level

/-- `benchmark_iscas85`, `/repo/experiments/runtime/iscas85.cpp:17-64`: one iteration. -/
def benchmarkIscas85F (A : AddEnv) (dec cv lg : ℚ → ℚ) (asserts : Bool) (files : String → List AigEvent × Bool)
    (readSize : Nat) (rs : Nat → Nat → Nat → Nat) (fuel : Nat) (metric : BenchMetric) (file : Nat) (op : IscasRounding)
    (level : Nat) (s : CTab) : Except Fault (List (BDD m) × List (BDD m) × ℚ × CTab) := do
  let original ← loadIscas asserts files file
  let rounded ← roundOutputs (iscasRoundF A.rnd op level) original
  let q ← computeErrorMetricF A dec cv lg readSize rs fuel original rounded metric s
  .ok (original, rounded, q)

/-- `benchmark_ace`, `/repo/experiments/runtime/average_case_error.cpp:10-54`: one iteration. -/
def benchmarkAceF (A : AddEnv) (dec cv lg : ℚ → ℚ) (asserts : Bool) (files : String → List AigEvent × Bool)
    (readSize : Nat) (rs : Nat → Nat → Nat → Nat) (fuel : Nat) (file level : Nat) (up : Bool) (s : CTab) :
    Except Fault (List (BDD m) × List (BDD m) × ℚ × CTab) := do
  let original ← loadIscas asserts files file
  let rounded ← roundOutputs (fun orig =>
    if up then roundAnyF A.rnd orig level 10000 false false else roundAnyF A.rnd orig level 10000 false true) original
  let q ← computeErrorMetricF A dec cv lg readSize rs fuel original rounded .averageCase s
  .ok (original, rounded, q)

/-- `benchmark_ace_steps`, `/repo/experiments/runtime/ace_steps.cpp:12-56`: one iteration. -/
def benchmarkAceStepsF (rnd dec : ℚ → ℚ) (asserts : Bool) (files : String → List AigEvent × Bool) (file level : Nat)
    (differenceOnly : Bool) : Except Fault (List (BDD m) × List (BDD m) × List (BDD m) × Option ℚ) := do
  let original ← loadIscas asserts files file
  let rounded ← roundOutputs (fun orig => roundAnyF rnd orig level 10000 true false) original
  let difference ← bddSubtract (original ++ [.zero]) (rounded ++ [.zero])
  let absdiff ← bddAbs .twosComplement difference
  if differenceOnly then .ok (original, rounded, absdiff, none)
  else do
    let q ← averageValueF rnd dec absdiff
    .ok (original, rounded, absdiff, some q)

/-- The switch in the loop, `/repo/experiments/runtime/operators.cpp:52-83`. -/
def operatorRoundF (rnd : ℚ → ℚ) (op : Operator) (level : Nat) (orig : BDD m) : Except Fault (BDD m) :=
  match op with
  | .supersetHeavy => roundAnyF rnd orig level level true false
  | .subsetLight => roundAnyF rnd orig level level false true
  | .supersetLight => roundAnyF rnd orig level level false false
  | .subsetHeavy => roundAnyF rnd orig level level true true
  | .roundBest => roundBestF rnd orig level level
  | .round => roundBddF rnd orig level
  | .positiveCofactor => .ok (cofactor orig level true)
  | .negativeCofactor => .ok (cofactor orig level false)

/-- `benchmark_operators`, `/repo/experiments/runtime/operators.cpp:22-86`: one iteration. -/
def benchmarkOperatorsF (rnd : ℚ → ℚ) (asserts : Bool) (files : String → List AigEvent × Bool) (file : Nat)
    (op : Operator) (level : Nat) : Except Fault (List (BDD m) × List (BDD m)) := do
  let original ← loadIscas asserts files file
  let rounded ← roundOutputs (operatorRoundF rnd op level) original
  .ok (original, rounded)

/-- `benchmark_sampling_methods`, `/repo/experiments/runtime/sampling_methods.cpp:16-57`: one iteration. -/
def benchmarkSamplingF (rnd : ℚ → ℚ) (asserts : Bool) (files : String → List AigEvent × Bool) (readSize : Nat)
    (improved : Bool) (samples : Int) (file : Nat) (acts : List (Nat × ℚ)) (rs : Nat → Nat → Nat)
    (rs' : Nat → Nat → Nat → Nat) : Except Fault (List (BDD m) × ℚ) := do
  let original ← loadIscas asserts files file
  let rounded := original.map (fun _ => BDD.zero)
  let q ← if improved then errorRateEfficientSamplingF rnd original rounded readSize samples acts rs'
    else errorRateSamplingF rnd original rounded readSize samples rs
  .ok (original, q)

end Verif

import Verif.Model.FloatAdd
import Verif.Model.FloatExperiments

/-!
# The search with metrics computed on ADDs

`bucket_greedy_minimize` once more, for metrics that go through ADDs: a call of such a metric may make constants in the
manager, and the constants that are there may change what the next call returns. So the table of constants of
`Verif.Model.FloatAdd` goes through the whole search. Coordinates are rounded as in `Verif.Model.FloatBucket`.
Simplification: as there, the sums compared by `std::min_element` are exact.
-/

namespace Verif

variable {m : Mgr}

/-- `struct MetricDimension`, `/repo/src/minimization/bucket_minimization.hpp:110-118`: the metric gets the manager
`mgr`. -/
structure MetricDimE (m : Mgr) where
  gridSize : Nat
  metric : List (BDD m) → List (BDD m) → CTab → Except Fault (ℚ × CTab)
  bound : ℚ

/-- A metric that is infinite or NaN as the argument of the conversion `std::size_t(...)`,
`/repo/src/minimization/bucket_minimization.cpp:125-126`. -/
def convertibleE : Except Fault (ℚ × CTab) → Except Fault (ℚ × CTab)
  | .error .nonFinite => .error .ub
  | r => r

/-- The metric loop, `/repo/src/minimization/bucket_minimization.cpp:118-147`. -/
def metricLoopE (rnd : ℚ → ℚ) (grid : List Nat) (function modified : List (BDD m)) (buckets : List (Bucket m))
    (nodes : Nat) : List (MetricDimE m) → List Nat → List ℚ → CTab → Except Fault (MetricResult × CTab)
  | [], idx, vals, c => .ok (.better idx vals, c)
  | d :: ds, idx, vals, c => do
      let p ← convertibleE (d.metric function modified c)
      if d.bound = 0 then .error .ub else
      let k ← toSizeT (coordinateF rnd d.gridSize p.1 d.bound)
      if d.gridSize ≤ k then .ok (.exceeded, p.2) else
      let i ← reduceIndex (idx ++ [k] ++ List.replicate ds.length 0) grid
      let b ← vget buckets i
      if b.bddSize ≤ nodes then .ok (.notBetter, p.2) else
      metricLoopE rnd grid function modified buckets nodes ds (idx ++ [k]) (vals ++ [p.1]) p.2

/-- One round of the operator loop, `/repo/src/minimization/bucket_minimization.cpp:98-180`. -/
def opStepE (rnd : ℚ → ℚ) (function : List (BDD m)) (metrics : List (MetricDimE m)) (populate : Bool)
    (current : Nat) (bucketFunction : List (BDD m)) (op : OpFun m) (opnum : Nat) (s : SearchState m) (c : CTab) :
    Except Fault (SearchState m × CTab) := do
  let grid := metrics.map (·.gridSize)
  let flag ← vget s.possible opnum
  if flag then
    let modified ← op bucketFunction
    let nodes := nodeCount modified
    let cur ← vget s.buckets current
    if cur.bddSize ≤ nodes then
      .ok (if cur.bddSize * 3 / 2 < nodes then { s with possible := s.possible.set opnum false } else s, c)
    else
      let r ← metricLoopE rnd grid function modified s.buckets nodes metrics [] [] c
      match r.1 with
      | .notBetter => .ok (s, r.2)
      | .exceeded => .ok ({ s with possible := s.possible.set opnum false }, r.2)
      | .better idx vals =>
          let start ← reduceIndex idx grid
          let s' ← updateLoop grid idx modified nodes vals opnum
            (if populate then s.buckets.length - start else 1) start s
          .ok (s', r.2)
  else .ok (s, c)

/-- The operator loop, `/repo/src/minimization/bucket_minimization.cpp:96-180`. -/
def opLoopE (rnd : ℚ → ℚ) (function : List (BDD m)) (metrics : List (MetricDimE m)) (populate : Bool)
    (current : Nat) (bucketFunction : List (BDD m)) :
    List (OpFun m) → Nat → SearchState m → CTab → Except Fault (SearchState m × CTab)
  | [], _, s, c => .ok (s, c)
  | op :: ops, opnum, s, c => do
      let p ← opStepE rnd function metrics populate current bucketFunction op opnum s c
      opLoopE rnd function metrics populate current bucketFunction ops (opnum + 1) p.1 p.2

/-- The loop `while (!test.empty())`, `/repo/src/minimization/bucket_minimization.cpp:78-188`. -/
def searchLoopE (rnd : ℚ → ℚ) (function : List (BDD m)) (metrics : List (MetricDimE m)) (ops : List (OpFun m))
    (populate : Bool) : Nat → List (Bucket m) → List (List Nat) → CTab → Except Fault (List (Bucket m) × CTab)
  | _, buckets, [], c => .ok (buckets, c)
  | 0, _, _ :: _, _ => .error .fuel
  | fuel + 1, buckets, w :: ws, c => do
      let pos := minElement w ws
      let current ← reduceIndex pos (metrics.map (·.gridSize))
      let b ← vget buckets current
      let p ← opLoopE rnd function metrics populate current b.function ops 0
        ⟨buckets, (w :: ws).erase pos, b.possibleOps, []⟩ c
      let buckets' ← replaceLoop p.1.possible p.1.replace p.1.buckets
      searchLoopE rnd function metrics ops populate fuel buckets' p.1.test p.2

/-- `bucket_greedy_minimize`, `/repo/src/minimization/bucket_minimization.cpp:49-191`. -/
def bucketGreedyMinimizeE (rnd : ℚ → ℚ) (fuel : Nat) (function : List (BDD m)) (metrics : List (MetricDimE m))
    (ops : List (OpFun m)) (populate : Bool) (c : CTab) : Except Fault (List (Bucket m) × CTab) :=
  if metrics.length = 0 then .error .invalidArgument else do
    let grid := metrics.map (·.gridSize)
    let buckets := List.replicate (totalBuckets grid)
      (⟨function, nodeCount function, List.replicate metrics.length 0,
        List.replicate ops.length true, true⟩ : Bucket m)
    let first ← createIndex 0 grid
    searchLoopE rnd function metrics ops populate fuel buckets (setInsert first []) c

/-- `metric_function`, `/repo/src/minimization/bucket_minimization.cpp:304-354`, with the metrics on ADDs: `cv` converts
a `cpp_dec_float_100` to `double`. The other metrics make no constants. -/
def metricFunctionE (A : AddEnv) (dec cv : ℚ → ℚ) (metric : ErrorMetric) (orig approx : List (BDD m)) (c : CTab) :
    Except Fault (ℚ × CTab) :=
  match metric with
  | .worstCaseRelative => wcreAddE A .baseTwo orig approx c
  | .averageCaseRelative => do let p ← acreAddE A dec .baseTwo orig approx c; .ok (cv p.1, p.2)
  | .averageCaseRelativeAdd => do let p ← acreAddE A dec .baseTwo orig approx c; .ok (cv p.1, p.2)
  | .worstCaseBitFlip => do let p ← worstCaseBitFlipErrorE A orig approx c; .ok (A.rnd p.1, p.2)
  | metric => do let v ← metricFunctionF A.rnd dec cv metric orig approx; .ok (v, c)

/-- The construction of the metric dimensions, `/repo/src/minimization/minimization_helper.cpp:62-70`. -/
def metricDimsE (A : AddEnv) (dec cv : ℚ → ℚ) : List SimpleMetricDim → List (MetricDimE m)
  | [] => []
  | d :: ds => ⟨d.gridSize, metricFunctionE A dec cv d.metric, d.bound⟩ :: metricDimsE A dec cv ds

/-- `bucket_minimize_helper`, `/repo/src/minimization/minimization_helper.cpp:59-105`; `c`: the constants in the
manager at the call. -/
def bucketMinimizeHelperE (A : AddEnv) (dec cv : ℚ → ℚ) (asserts : Bool) (fuel : Nat)
    (files : String → List AigEvent × Bool) (rs : Nat → Nat) (info : MinimizationInfo) (c : CTab) :
    Except Fault (MinimizationResult m × CTab) := do
  let function ← loadInput asserts files info.input
  let ops ← operatorFunctionsF A.rnd function info rs
  let p ← bucketGreedyMinimizeE A.rnd fuel function (metricDimsE A dec cv info.metrics) ops
    info.populateAllBuckets c
  let smallest ← minBucket p.1
  .ok (⟨nodeCount function, smallest, p.1⟩, p.2)

end Verif

import Verif.Model.Bucket
import Verif.Model.Float

/-!
# The search with buckets on `double`s

`bucket_greedy_minimize` with the coordinates computed as in the code, `grid * error / bound` on `double`s: the
conversion of the grid size, the product and the quotient are rounded by `rnd`. Everything else is as in
`Verif.Model.Bucket`. Simplification: the search compares exact sums in `std::min_element`;
`minElementF` compares rounded ones, and C109_min_element shows that it finds the same.
-/

namespace Verif

variable {m : Mgr}

/-- `bucket_grid_size[i] * error / metrics[i].bound`, `/repo/src/minimization/bucket_minimization.cpp:126`. -/
def coordinateF (rnd : ℚ → ℚ) (grid : Nat) (error bound : ℚ) : ℚ := rnd (rnd (rnd grid * error) / bound)

/-- `std::accumulate` from `0.` on `double`s, `/repo/src/minimization/bucket_minimization.cpp:84-85`. -/
def indexSumF (rnd : ℚ → ℚ) : List Nat → ℚ → ℚ
  | [], acc => acc
  | k :: ks, acc => indexSumF rnd ks (rnd (acc + rnd k))

/-- `std::min_element` by these sums, `/repo/src/minimization/bucket_minimization.cpp:81-86`. -/
def minElementF (rnd : ℚ → ℚ) : List Nat → List (List Nat) → List Nat
  | w, [] => w
  | w, v :: vs => if indexSumF rnd v 0 < indexSumF rnd w 0 then minElementF rnd v vs else minElementF rnd w vs

/-- The metric loop, `/repo/src/minimization/bucket_minimization.cpp:118-147`. -/
def metricLoopF (rnd : ℚ → ℚ) (grid : List Nat) (function modified : List (BDD m)) (buckets : List (Bucket m))
    (nodes : Nat) : List (MetricDim m) → List Nat → List ℚ → Except Fault MetricResult
  | [], idx, vals => .ok (.better idx vals)
  | d :: ds, idx, vals => do
      let error ← convertible (d.metric function modified)
      if d.bound = 0 then .error .ub else
      let k ← toSizeT (coordinateF rnd d.gridSize error d.bound)
      if d.gridSize ≤ k then .ok .exceeded else
      let p ← reduceIndex (idx ++ [k] ++ List.replicate ds.length 0) grid
      let b ← vget buckets p
      if b.bddSize ≤ nodes then .ok .notBetter else
      metricLoopF rnd grid function modified buckets nodes ds (idx ++ [k]) (vals ++ [error])

/-- One round of the operator loop, `/repo/src/minimization/bucket_minimization.cpp:98-180`. -/
def opStepF (rnd : ℚ → ℚ) (function : List (BDD m)) (metrics : List (MetricDim m)) (populate : Bool)
    (current : Nat) (bucketFunction : List (BDD m)) (op : OpFun m) (opnum : Nat) (s : SearchState m) :
    Except Fault (SearchState m) := do
  let grid := metrics.map (·.gridSize)
  let flag ← vget s.possible opnum
  if flag then
    let modified ← op bucketFunction
    let nodes := nodeCount modified
    let cur ← vget s.buckets current
    if cur.bddSize ≤ nodes then
      .ok (if cur.bddSize * 3 / 2 < nodes then { s with possible := s.possible.set opnum false } else s)
    else
      let r ← metricLoopF rnd grid function modified s.buckets nodes metrics [] []
      match r with
      | .notBetter => .ok s
      | .exceeded => .ok { s with possible := s.possible.set opnum false }
      | .better idx vals =>
          let start ← reduceIndex idx grid
          updateLoop grid idx modified nodes vals opnum
            (if populate then s.buckets.length - start else 1) start s
  else .ok s

/-- The operator loop, `/repo/src/minimization/bucket_minimization.cpp:96-180`. -/
def opLoopF (rnd : ℚ → ℚ) (function : List (BDD m)) (metrics : List (MetricDim m)) (populate : Bool)
    (current : Nat) (bucketFunction : List (BDD m)) :
    List (OpFun m) → Nat → SearchState m → Except Fault (SearchState m)
  | [], _, s => .ok s
  | op :: ops, opnum, s => do
      let s' ← opStepF rnd function metrics populate current bucketFunction op opnum s
      opLoopF rnd function metrics populate current bucketFunction ops (opnum + 1) s'

/-- The loop `while (!test.empty())`, `/repo/src/minimization/bucket_minimization.cpp:78-188`. -/
def searchLoopF (rnd : ℚ → ℚ) (function : List (BDD m)) (metrics : List (MetricDim m)) (ops : List (OpFun m))
    (populate : Bool) : Nat → List (Bucket m) → List (List Nat) → Except Fault (List (Bucket m))
  | _, buckets, [] => .ok buckets
  | 0, _, _ :: _ => .error .fuel
  | fuel + 1, buckets, w :: ws => do
      let pos := minElement w ws
      let current ← reduceIndex pos (metrics.map (·.gridSize))
      let b ← vget buckets current
      let s ← opLoopF rnd function metrics populate current b.function ops 0
        ⟨buckets, (w :: ws).erase pos, b.possibleOps, []⟩
      let buckets' ← replaceLoop s.possible s.replace s.buckets
      searchLoopF rnd function metrics ops populate fuel buckets' s.test

/-- `bucket_greedy_minimize`, `/repo/src/minimization/bucket_minimization.cpp:49-191`. -/
def bucketGreedyMinimizeF (rnd : ℚ → ℚ) (fuel : Nat) (function : List (BDD m)) (metrics : List (MetricDim m))
    (ops : List (OpFun m)) (populate : Bool) : Except Fault (List (Bucket m)) :=
  if metrics.length = 0 then .error .invalidArgument else do
    let grid := metrics.map (·.gridSize)
    let buckets := List.replicate (totalBuckets grid)
      (⟨function, nodeCount function, List.replicate metrics.length 0,
        List.replicate ops.length true, true⟩ : Bucket m)
    let first ← createIndex 0 grid
    searchLoopF rnd function metrics ops populate fuel buckets (setInsert first [])

end Verif

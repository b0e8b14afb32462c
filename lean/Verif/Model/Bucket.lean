import Verif.Model.Operators

/-!
# `src/minimization/bucket_minimization.cpp`

`std::size_t` arithmetic is modulo `2^64` where the code multiplies grid sizes.  Metrics and operators
are arbitrary functions (`std::function` objects without state of their own); an operator that
modifies its argument in place returns the new vector here.  Errors are `double`s in the code and
exact rationals here.  The minimisation loop has no bound in the code; the model takes an iteration
budget.  Simplification: allocation of the bucket vector always succeeds.
-/

namespace Verif

variable {m : Mgr}

/-- `std::size_t` arithmetic. -/
def uszt (n : Nat) : Nat := n % 2 ^ 64

/-- `reduce_multi_dim_index`, `/repo/src/minimization/bucket_minimization.cpp:29-33`; last argument:
`result`. -/
def reduceLoop : List Nat → List Nat → Nat → Except Fault Nat
  | [], _, r => .ok r
  | _ :: _, [], _ => .error .ub
  | b :: bs, i :: is, r => reduceLoop bs is (uszt (uszt (r * b) + i))

/-- `reduce_multi_dim_index`, `/repo/src/minimization/bucket_minimization.cpp:25-35`. -/
def reduceIndex (index bounds : List Nat) : Except Fault Nat := reduceLoop bounds index 0

/-- Loop of `create_multi_dim_index`, `/repo/src/minimization/bucket_minimization.cpp:41-45`, from the
last bound down: bounds and result are reversed. -/
def createLoop : List Nat → Nat → Except Fault (List Nat)
  | [], _ => .ok []
  | b :: bs, i => if b = 0 then .error .ub else do
      let r ← createLoop bs (i / b)
      .ok (i % b :: r)

/-- `create_multi_dim_index`, `/repo/src/minimization/bucket_minimization.cpp:37-47`. -/
def createIndex (index : Nat) (bounds : List Nat) : Except Fault (List Nat) := do
  let r ← createLoop bounds.reverse index
  .ok r.reverse

/-- `struct MetricDimension`, `/repo/src/minimization/bucket_minimization.hpp:110-118`. -/
structure MetricDim (m : Mgr) where
  gridSize : Nat
  metric : List (BDD m) → List (BDD m) → Except Fault ℚ
  bound : ℚ

/-- `struct Bucket`, `/repo/src/minimization/bucket_minimization.hpp:122-140`. -/
structure Bucket (m : Mgr) where
  function : List (BDD m)
  bddSize : Nat
  metricValues : List ℚ
  possibleOps : List Bool
  isEmpty : Bool
  deriving DecidableEq

/-- `OperatorFunction`, `/repo/src/minimization/bucket_minimization.hpp:24`. -/
abbrev OpFun (m : Mgr) := List (BDD m) → Except Fault (List (BDD m))

/-- `operator<` of `std::vector<std::size_t>`, the order of `std::set<std::vector<std::size_t>>`,
`/repo/src/minimization/bucket_minimization.cpp:75`. -/
def lexLt : List Nat → List Nat → Bool
  | _, [] => false
  | [], _ :: _ => true
  | a :: as, b :: bs => if a < b then true else if b < a then false else lexLt as bs

/-- `test.insert`, `/repo/src/minimization/bucket_minimization.cpp:76`, `178`: the set as the list of
its elements in iteration order. -/
def setInsert (v : List Nat) : List (List Nat) → List (List Nat)
  | [] => [v]
  | w :: ws => if v = w then w :: ws else if lexLt v w then v :: w :: ws else w :: setInsert v ws

/-- `std::min_element` by the sum of the entries, `/repo/src/minimization/bucket_minimization.cpp:81-86`:
the first smallest one.  (The sums are `double`s in the code, exact here.) -/
def minElement : List Nat → List (List Nat) → List Nat
  | w, [] => w
  | w, v :: vs => if v.sum < w.sum then minElement v vs else minElement w vs

/-- `std::size_t(double)`: truncates; undefined when the result does not fit. -/
def toSizeT (q : ℚ) : Except Fault Nat :=
  if q ≤ -1 ∨ 2 ^ 64 ≤ q then .error .ub else .ok ⌊q⌋.toNat

/-- A metric that is infinite or NaN as the argument of the conversion `std::size_t(...)`,
`/repo/src/minimization/bucket_minimization.cpp:125-126`. -/
def convertible : Except Fault ℚ → Except Fault ℚ
  | .error .nonFinite => .error .ub
  | r => r

/-- How the metric loop ends: no improvement, bound exceeded (the operator is also switched off), or
the index and the metric values of the modified function. -/
inductive MetricResult
  | notBetter
  | exceeded
  | better (index : List Nat) (values : List ℚ)

/-- The metric loop, `/repo/src/minimization/bucket_minimization.cpp:118-147`; first argument: the
metrics left; `idx`, `vals`: the entries of `new_bucket_index` and `metric_values` set so far.  A
metric that is infinite or NaN, or a bound of 0, makes the conversion undefined. -/
def metricLoop (grid : List Nat) (function modified : List (BDD m)) (buckets : List (Bucket m))
    (nodes : Nat) : List (MetricDim m) → List Nat → List ℚ → Except Fault MetricResult
  | [], idx, vals => .ok (.better idx vals)
  | d :: ds, idx, vals => do
      let error ← convertible (d.metric function modified)
      if d.bound = 0 then .error .ub else
      let k ← toSizeT (d.gridSize * error / d.bound)
      if d.gridSize ≤ k then .ok .exceeded else
      let p ← reduceIndex (idx ++ [k] ++ List.replicate ds.length 0) grid
      let b ← vget buckets p
      if b.bddSize ≤ nodes then .ok .notBetter else
      metricLoop grid function modified buckets nodes ds (idx ++ [k]) (vals ++ [error])

/-- What the operator loop changes. -/
structure SearchState (m : Mgr) where
  /-- `buckets` -/
  buckets : List (Bucket m)
  /-- `test` -/
  test : List (List Nat)
  /-- `bucket_possible_operators` -/
  possible : List Bool
  /-- `replace_possible_operators`, the assignments in order -/
  replace : List (Nat × Nat)

/-- The loop updating buckets, `/repo/src/minimization/bucket_minimization.cpp:148-179`; first argument:
iterations left. -/
def updateLoop (grid newIdx : List Nat) (modified : List (BDD m)) (nodes : Nat) (vals : List ℚ)
    (opnum : Nat) : Nat → Nat → SearchState m → Except Fault (SearchState m)
  | 0, _, s => .ok s
  | n + 1, i, s => do
      let b ← vget s.buckets i
      if b.bddSize ≤ nodes then updateLoop grid newIdx modified nodes vals opnum n (i + 1) s else
      let index ← createIndex i grid
      if (List.zipWith (fun a c => decide (a < c)) index newIdx).any id then
        updateLoop grid newIdx modified nodes vals opnum n (i + 1) s
      else
        updateLoop grid newIdx modified nodes vals opnum n (i + 1)
          { s with
            buckets := s.buckets.set i
              { b with function := modified, bddSize := nodes, metricValues := vals, isEmpty := false }
            test := setInsert index s.test
            replace := s.replace ++ [(i, opnum)] }

/-- One round of the operator loop, `/repo/src/minimization/bucket_minimization.cpp:98-180`. -/
def opStep (function : List (BDD m)) (metrics : List (MetricDim m)) (populate : Bool)
    (current : Nat) (bucketFunction : List (BDD m)) (op : OpFun m) (opnum : Nat) (s : SearchState m) :
    Except Fault (SearchState m) := do
  let grid := metrics.map (·.gridSize)
  let flag ← vget s.possible opnum
  if flag then
    let modified ← op bucketFunction
    let nodes := nodeCount modified
    let cur ← vget s.buckets current
    if cur.bddSize ≤ nodes then
      .ok (if cur.bddSize * 3 / 2 < nodes then { s with possible := s.possible.set opnum false } else s)
    else
      let r ← metricLoop grid function modified s.buckets nodes metrics [] []
      match r with
      | .notBetter => .ok s
      | .exceeded => .ok { s with possible := s.possible.set opnum false }
      | .better idx vals =>
          let start ← reduceIndex idx grid
          updateLoop grid idx modified nodes vals opnum
            (if populate then s.buckets.length - start else 1) start s
  else .ok s

/-- The operator loop, `/repo/src/minimization/bucket_minimization.cpp:96-180`: the operators left and
the number of the next one. -/
def opLoop (function : List (BDD m)) (metrics : List (MetricDim m)) (populate : Bool)
    (current : Nat) (bucketFunction : List (BDD m)) :
    List (OpFun m) → Nat → SearchState m → Except Fault (SearchState m)
  | [], _, s => .ok s
  | op :: ops, opnum, s => do
      let s' ← opStep function metrics populate current bucketFunction op opnum s
      opLoop function metrics populate current bucketFunction ops (opnum + 1) s'

/-- The loop over `replace_possible_operators`, `/repo/src/minimization/bucket_minimization.cpp:183-187`.
The code goes through a map, here the assignments to it are done in order: a later one for the same
bucket overwrites the earlier one. -/
def replaceLoop (possible : List Bool) : List (Nat × Nat) → List (Bucket m) →
    Except Fault (List (Bucket m))
  | [], bs => .ok bs
  | (i, op) :: rest, bs => do
      let b ← vget bs i
      let _ ← vget possible op
      replaceLoop possible rest (bs.set i { b with possibleOps := possible.set op false })

/-- The loop `while (!test.empty())`, `/repo/src/minimization/bucket_minimization.cpp:78-188`; first
argument: the iteration budget. -/
def searchLoop (function : List (BDD m)) (metrics : List (MetricDim m)) (ops : List (OpFun m))
    (populate : Bool) : Nat → List (Bucket m) → List (List Nat) → Except Fault (List (Bucket m))
  | _, buckets, [] => .ok buckets
  | 0, _, _ :: _ => .error .fuel
  | fuel + 1, buckets, w :: ws => do
      let pos := minElement w ws
      let current ← reduceIndex pos (metrics.map (·.gridSize))
      let b ← vget buckets current
      let s ← opLoop function metrics populate current b.function ops 0
        ⟨buckets, (w :: ws).erase pos, b.possibleOps, []⟩
      let buckets' ← replaceLoop s.possible s.replace s.buckets
      searchLoop function metrics ops populate fuel buckets' s.test

/-- `total_buckets`, `/repo/src/minimization/bucket_minimization.cpp:67-68`. -/
def totalBuckets (grid : List Nat) : Nat := grid.foldl (fun a b => uszt (a * b)) 1

/-- `bucket_greedy_minimize`, `/repo/src/minimization/bucket_minimization.cpp:49-191`. -/
def bucketGreedyMinimize (fuel : Nat) (function : List (BDD m)) (metrics : List (MetricDim m))
    (ops : List (OpFun m)) (populate : Bool) : Except Fault (List (Bucket m)) :=
  if metrics.length = 0 then .error .invalidArgument else do
    let grid := metrics.map (·.gridSize)
    let buckets := List.replicate (totalBuckets grid)
      (⟨function, nodeCount function, List.replicate metrics.length 0,
        List.replicate ops.length true, true⟩ : Bucket m)
    let first ← createIndex 0 grid
    searchLoop function metrics ops populate fuel buckets (setInsert first [])

/-- `enum class Operator`, `/repo/src/minimization/bucket_minimization.hpp:12-22`. -/
inductive Operator
  | positiveCofactor
  | negativeCofactor
  | subsetLight
  | subsetHeavy
  | supersetLight
  | supersetHeavy
  | roundBest
  | round
  deriving DecidableEq, Repr

/-- `BDD::Cofactor` (`Cudd_Cofactor`) with the literal of variable `v` of sign `val`, used in
`/repo/src/minimization/bucket_minimization.cpp:198-199`: CUDD replaces nodes of `v` by the child. -/
def cofactorRec (v : Nat) (val : Bool) : (d : DD) → d.WF m → Bool → BDD m
  | .one, h, neg => BDD.ofNode neg .one h
  | .node w t c e, h, neg =>
      if w = v then
        if val then BDD.ofNode neg t h.1 else BDD.ofNode (neg ^^ c) e h.2.1
      else BDD.ite (.var w) (cofactorRec v val t h.1 neg) (cofactorRec v val e h.2.1 (neg ^^ c))

/-- `BDD::Cofactor` with a literal. -/
def cofactor (f : BDD m) (v : Nat) (val : Bool) : BDD m := cofactorRec v val f.edge.n f.wf f.edge.neg

/-- `apply_operator`, `/repo/src/minimization/bucket_minimization.cpp:193-213`. -/
def applyOperator (b : BDD m) (op : Operator) (levelStart levelEnd : Nat) : Except Fault (BDD m) :=
  match op with
  | .positiveCofactor => .ok (cofactor b levelStart true)
  | .negativeCofactor => .ok (cofactor b levelStart false)
  | .subsetLight => subsetLightChild b levelStart levelEnd
  | .supersetHeavy => supersetHeavyChild b levelStart levelEnd
  | .subsetHeavy => subsetHeavyChild b levelStart levelEnd
  | .supersetLight => supersetLightChild b levelStart levelEnd
  | .roundBest => roundBest b levelStart levelEnd
  | .round => roundBdd b levelStart

/-- `apply_operator` on a vector, `/repo/src/minimization/bucket_minimization.cpp:215-222`; also the
lambda of `generate_multi_bdd_operators`, lines 253-258. -/
def applyOperatorAll (op : Operator) (levelStart levelEnd : Nat) : OpFun m
  | [] => .ok []
  | b :: bs => do
      let b' ← applyOperator b op levelStart levelEnd
      let bs' ← applyOperatorAll op levelStart levelEnd bs
      .ok (b' :: bs')

/-- The lambda of `generate_single_bdd_operators`,
`/repo/src/minimization/bucket_minimization.cpp:235-237`. -/
def applyOperatorAt (i j : Nat) (op : Operator) : OpFun m := fun f => do
  let b ← vget f i
  let b' ← applyOperator b op j j
  .ok (f.set i b')

/-- `generate_single_bdd_operators`, `/repo/src/minimization/bucket_minimization.cpp:224-242`. -/
def generateSingleBddOperators (function : List (BDD m)) (operators : List Operator) :
    List (OpFun m) :=
  (List.range function.length).flatMap fun i =>
    (List.range (terminalLevel [function])).flatMap fun j =>
      operators.map fun op => applyOperatorAt i j op

/-- `generate_multi_bdd_operators`, `/repo/src/minimization/bucket_minimization.cpp:244-262`. -/
def generateMultiBddOperators (function : List (BDD m)) (operators : List Operator) :
    List (OpFun m) :=
  (List.range (terminalLevel [function])).flatMap fun j =>
    operators.map fun op => applyOperatorAll op j j

/-- `generate_random_operators`, `/repo/src/minimization/bucket_minimization.cpp:264-282`; `rs` is the
stream of the values of `rand()`, `k` the position in it.  The modulo by zero is undefined. -/
def generateRandomOperators (function : List (BDD m)) (operators : List Operator) (rs : Nat → Nat) :
    Nat → Nat → Except Fault (List (OpFun m))
  | 0, _ => .ok []
  | n + 1, k => do
      if operators.length = 0 then .error .ub else
      let op ← vget operators (rs k % operators.length)
      if terminalLevel [function] = 0 then .error .ub else
      let level := rs (k + 1) % terminalLevel [function]
      let rest ← generateRandomOperators function operators rs n (k + 2)
      .ok (applyOperatorAll op level level :: rest)

end Verif

import Verif.Model.Metrics
import Verif.Model.Bucket
import Verif.Model.Parsing
import Mathlib.Data.List.Sort

/-!
# `/repo/experiments/minimization/nsga2`: minimisation by a genetic algorithm

The algorithm itself (`pagmo::nsga2`) belongs to the library pagmo.  The populations it returns are
arbitrary here.  `int bit`, `int level` and the position in a vector do not overflow.  `pagmo::problem`
and `pagmo::population` are left out: a population is the list of its vectors.
-/

namespace Verif

variable {m : Mgr}

/-- The members of `BDDMinimizationProblem` that are given to the constructor,
`/repo/experiments/minimization/nsga2/bddminimizationproblem.cpp:6-16`. -/
structure MinProblem (m : Mgr) where
  original : List (BDD m)
  maxErrorRate : ℚ
  maxAce : ℚ
  erAndAce : Bool

/-- `compute_support_positions`,
`/repo/experiments/minimization/nsga2/bddminimizationproblem.cpp:18-31`; `SupportIndices` is sorted. -/
def supportPositions (f : List (BDD m)) : List (Nat × Nat) :=
  f.zipIdx.flatMap (fun p => (p.1.supportIndices.insertionSort (· ≤ ·)).map (fun s => (p.2, s)))

/-- `get_bounds`, `/repo/experiments/minimization/nsga2/bddminimizationproblem.cpp:33-37`. -/
def getBounds (f : List (BDD m)) : List ℚ × List ℚ :=
  (List.replicate (supportPositions f).length 0, List.replicate (supportPositions f).length 2)

/-- Inner loop of `make_population`, lines 46-49; `rs` is the stream of the values of `rand()` and `k`
the position in it.  The value is computed before the index.  The modulo by zero is undefined. -/
def initLoop (rs : Nat → Nat) : Nat → Nat → List ℚ → Except Fault (List ℚ)
  | 0, _, data => .ok data
  | c + 1, k, data =>
      if data.length = 0 then .error .ub
      else do
        let data ← vset data (rs (k + 1) % data.length) (1 + (rs k % 2 : Nat))
        initLoop rs c (k + 2) data

/-- `make_population`, `/repo/experiments/minimization/nsga2/bddminimizationproblem.cpp:39-53`. -/
def makePopulation (f : List (BDD m)) (rs : Nat → Nat) (initializationCount : Nat) :
    Nat → Nat → Except Fault (List (List ℚ))
  | 0, _ => .ok []
  | p + 1, k => do
      let data ← initLoop rs initializationCount k (getBounds f).1
      let rest ← makePopulation f rs initializationCount p (k + 2 * initializationCount)
      .ok (data :: rest)

/-- One iteration of the loop of `function_from_individuum`, lines 62-71. -/
def individuumStep (p : ℚ) (pos : Nat × Nat) (ind : List (BDD m)) : Except Fault (List (BDD m)) :=
  if p > 3 / 2 then do
    let b ← vget ind pos.1
    vset ind pos.1 (cofactor b pos.2 true)
  else if p > 1 / 2 then do
    let b ← vget ind pos.1
    vset ind pos.1 (cofactor b pos.2 false)
  else .ok ind

/-- The loop of `function_from_individuum`, lines 60-72, from position `i` on. -/
def individuumLoop (parameters : List ℚ) :
    List (Nat × Nat) → Nat → List (BDD m) → Except Fault (List (BDD m))
  | [], _, ind => .ok ind
  | pos :: rest, i, ind => do
      let p ← vget parameters i
      let ind ← individuumStep p pos ind
      individuumLoop parameters rest (i + 1) ind

/-- `function_from_individuum`,
`/repo/experiments/minimization/nsga2/bddminimizationproblem.cpp:55-74`. -/
def functionFromIndividuum (f : List (BDD m)) (parameters : List ℚ) : Except Fault (List (BDD m)) :=
  individuumLoop parameters (supportPositions f) 0 f

/-- The errors of an individuum, lines 101-108. -/
def individuumErrors (er_and_ace : Bool) (f g : List (BDD m)) : Except Fault (ℚ × ℚ) := do
  let er ← errorRate f g
  if er_and_ace then do
    let ace ← averageCaseError .baseTwo f g
    .ok (er, ace)
  else .ok (er, 0)

/-- The punished node count, lines 112-119. -/
def punish (pr : MinProblem m) (nodes er ace : ℚ) : ℚ :=
  let nodes := if er > pr.maxErrorRate then nodes * (er * 10000 + 50) else nodes
  if ace > pr.maxAce then nodes * (100 + ace) else nodes

/-- `fitness`, `/repo/experiments/minimization/nsga2/bddminimizationproblem.cpp:76-129`. -/
def fitness (pr : MinProblem m) (parameters : List ℚ) : Except Fault (List ℚ) := do
  let g ← functionFromIndividuum pr.original parameters
  let nodes : ℚ := nodeCount g
  if nodes ≥ nodeCount pr.original then
    .ok (if pr.erAndAce then [nodes * 5, 100, pr.maxAce * 2] else [nodes * 5, 100])
  else do
    let e ← individuumErrors pr.erAndAce pr.original g
    let nodes := punish pr nodes e.1 e.2
    .ok (if pr.erAndAce then [nodes, e.1, e.2] else [nodes, e.1])

/-- `get_nobj`, `/repo/experiments/minimization/nsga2/bddminimizationproblem.hpp:31-34`. -/
def getNobj (pr : MinProblem m) : Nat := if pr.erAndAce then 3 else 2

/-- `MinimizationResult` without the running time,
`/repo/experiments/minimization/nsga2/nsga2_minimization_helper.hpp`. -/
structure GeneticResult where
  nodeCount : Nat
  errorRate : ℚ
  ace : ℚ
  deriving DecidableEq, Repr

/-- The initial `best_result`,
`/repo/experiments/minimization/nsga2/nsga2_minimization_helper.cpp:42-45`. -/
def noResult : GeneticResult := ⟨2 ^ 64 - 1, 0, 0⟩

/-- The condition in lines 60-61; `fit[2]` is read only if both metrics are used. -/
def acceptable (maxErrorRate maxAce : ℚ) (both : Bool) (fit : List ℚ) (best : GeneticResult) :
    Except Fault Bool := do
  let f1 ← vget fit 1
  if f1 < maxErrorRate then
    if both then do
      let f2 ← vget fit 2
      if f2 < maxAce then do
        let f0 ← vget fit 0
        .ok (decide (f0 < best.nodeCount))
      else .ok false
    else do
      let f0 ← vget fit 0
      .ok (decide (f0 < best.nodeCount))
  else .ok false

/-- The assignments in lines 63-68; a `double` not above -1 has no value of type `size_t`. -/
def takeFit (both : Bool) (fit : List ℚ) (best : GeneticResult) : Except Fault GeneticResult := do
  let f0 ← vget fit 0
  let f1 ← vget fit 1
  if f0 ≤ -1 then .error .ub
  else if both then do
    let f2 ← vget fit 2
    .ok ⟨⌊f0⌋.toNat, f1, f2⟩
  else .ok ⟨⌊f0⌋.toNat, f1, best.ace⟩

/-- The loop over a population, lines 55-70. -/
def scanPopulation (pr : MinProblem m) (maxErrorRate maxAce : ℚ) (both : Bool) :
    List (List ℚ) → GeneticResult → Except Fault GeneticResult
  | [], best => .ok best
  | ind :: rest, best => do
      let fit ← fitness pr ind
      let b ← acceptable maxErrorRate maxAce both fit best
      if b then do
        let best ← takeFit both fit best
        scanPopulation pr maxErrorRate maxAce both rest best
      else scanPopulation pr maxErrorRate maxAce both rest best

/-- The loop in lines 49-77; `pops k` is the population after the `k`-th call of `evolve`. -/
def geneticLoop (pr : MinProblem m) (maxErrorRate maxAce : ℚ) (both : Bool) (pops : Nat → List (List ℚ)) :
    Nat → Nat → GeneticResult → Except Fault GeneticResult
  | 0, _, _ => .error .fuel
  | fuel + 1, k, best => do
      let best' ← scanPopulation pr maxErrorRate maxAce both (pops k) best
      if best'.nodeCount = best.nodeCount then .ok best'
      else geneticLoop pr maxErrorRate maxAce both pops fuel (k + 1) best'

/-- `run_genetic_minimization`,
`/repo/experiments/minimization/nsga2/nsga2_minimization_helper.cpp:9-85`, without the call of
`make_population` and the clock.  `fl` is the conversion of `double` to `float`: the limits are passed as
`float` to the problem, while the loop compares with the `double`. -/
def runGenetic (fl : ℚ → ℚ) (f : List (BDD m)) (maxErrorRate maxAce : ℚ) (both : Bool)
    (pops : Nat → List (List ℚ)) (fuel : Nat) : Except Fault GeneticResult :=
  geneticLoop ⟨f, fl maxErrorRate, fl maxAce, both⟩ maxErrorRate maxAce both pops fuel 0 noResult

end Verif

import Verif.Model.FloatExperiments
import Verif.Model.Nsga

/-!
# The genetic search on `double`s

`fitness` and `run_genetic_minimization` with the metrics of `Verif.Model.FloatMetrics` and every operation on `double`s
rounded by `rnd`; `dec` rounds the quotients of `cpp_dec_float_100`s, `cv` converts those to `double`, and `fl` converts
the limits to `float`. The rest is as in `Verif.Model.Nsga`. Node counts are `int`s, which are `double`s; doubling a
`float` is exact. The entries of an individual are compared with 0.5 and 1.5 only, so they are not rounded.
-/

namespace Verif

variable {m : Mgr}

/-- The errors of an individuum, `/repo/experiments/minimization/nsga2/bddminimizationproblem.cpp:101-108`. -/
def individuumErrorsF (rnd dec cv : ℚ → ℚ) (er_and_ace : Bool) (f g : List (BDD m)) : Except Fault (ℚ × ℚ) := do
  let er ← errorRateF rnd f g
  if er_and_ace then do
    let ace ← averageCaseErrorF rnd dec .baseTwo f g
    .ok (er, cv ace)
  else .ok (er, 0)

/-- The punished node count, `/repo/experiments/minimization/nsga2/bddminimizationproblem.cpp:112-119`. -/
def punishF (rnd : ℚ → ℚ) (pr : MinProblem m) (nodes er ace : ℚ) : ℚ :=
  let nodes := if er > pr.maxErrorRate then rnd (nodes * rnd (rnd (er * 10000) + 50)) else nodes
  if ace > pr.maxAce then rnd (nodes * rnd (100 + ace)) else nodes

/-- `fitness`, `/repo/experiments/minimization/nsga2/bddminimizationproblem.cpp:76-129`. -/
def fitnessF (rnd dec cv : ℚ → ℚ) (pr : MinProblem m) (parameters : List ℚ) : Except Fault (List ℚ) := do
  let g ← functionFromIndividuum pr.original parameters
  let nodes : ℚ := nodeCount g
  if nodes ≥ nodeCount pr.original then
    .ok (if pr.erAndAce then [rnd (nodes * 5), 100, pr.maxAce * 2] else [rnd (nodes * 5), 100])
  else do
    let e ← individuumErrorsF rnd dec cv pr.erAndAce pr.original g
    let nodes := punishF rnd pr nodes e.1 e.2
    .ok (if pr.erAndAce then [nodes, e.1, e.2] else [nodes, e.1])

/-- The condition in `/repo/experiments/minimization/nsga2/nsga2_minimization_helper.cpp:60-61`; the node count of type
`size_t` is converted to `double`. -/
def acceptableF (rnd : ℚ → ℚ) (maxErrorRate maxAce : ℚ) (both : Bool) (fit : List ℚ) (best : GeneticResult) :
    Except Fault Bool := do
  let f1 ← vget fit 1
  if f1 < maxErrorRate then
    if both then do
      let f2 ← vget fit 2
      if f2 < maxAce then do
        let f0 ← vget fit 0
        .ok (decide (f0 < rnd best.nodeCount))
      else .ok false
    else do
      let f0 ← vget fit 0
      .ok (decide (f0 < rnd best.nodeCount))
  else .ok false

/-- The assignments in `/repo/experiments/minimization/nsga2/nsga2_minimization_helper.cpp:63-68`. -/
def takeFitF (both : Bool) (fit : List ℚ) (best : GeneticResult) : Except Fault GeneticResult := do
  let f0 ← vget fit 0
  let f1 ← vget fit 1
  let nodes ← toSizeT f0
  if both then do
    let f2 ← vget fit 2
    .ok ⟨nodes, f1, f2⟩
  else .ok ⟨nodes, f1, best.ace⟩

/-- The loop over a population, `/repo/experiments/minimization/nsga2/nsga2_minimization_helper.cpp:55-70`. -/
def scanPopulationF (rnd dec cv : ℚ → ℚ) (pr : MinProblem m) (maxErrorRate maxAce : ℚ) (both : Bool) :
    List (List ℚ) → GeneticResult → Except Fault GeneticResult
  | [], best => .ok best
  | ind :: rest, best => do
      let fit ← fitnessF rnd dec cv pr ind
      let b ← acceptableF rnd maxErrorRate maxAce both fit best
      if b then do
        let best ← takeFitF both fit best
        scanPopulationF rnd dec cv pr maxErrorRate maxAce both rest best
      else scanPopulationF rnd dec cv pr maxErrorRate maxAce both rest best

/-- The loop in `/repo/experiments/minimization/nsga2/nsga2_minimization_helper.cpp:49-77`. -/
def geneticLoopF (rnd dec cv : ℚ → ℚ) (pr : MinProblem m) (maxErrorRate maxAce : ℚ) (both : Bool)
    (pops : Nat → List (List ℚ)) : Nat → Nat → GeneticResult → Except Fault GeneticResult
  | 0, _, _ => .error .fuel
  | fuel + 1, k, best => do
      let best' ← scanPopulationF rnd dec cv pr maxErrorRate maxAce both (pops k) best
      if best'.nodeCount = best.nodeCount then .ok best'
      else geneticLoopF rnd dec cv pr maxErrorRate maxAce both pops fuel (k + 1) best'

/-- `run_genetic_minimization`, `/repo/experiments/minimization/nsga2/nsga2_minimization_helper.cpp:9-85`. -/
def runGeneticF (rnd dec cv fl : ℚ → ℚ) (f : List (BDD m)) (maxErrorRate maxAce : ℚ) (both : Bool)
    (pops : Nat → List (List ℚ)) (fuel : Nat) : Except Fault GeneticResult :=
  geneticLoopF rnd dec cv ⟨f, fl maxErrorRate, fl maxAce, both⟩ maxErrorRate maxAce both pops fuel 0 noResult

/-- A call with the initial population drawn first,
`/repo/experiments/minimization/nsga2/nsga2_minimization_helper.cpp:15-39`. -/
def geneticExperimentF (rnd dec cv fl : ℚ → ℚ) (rs : Nat → Nat) (function : List (BDD m)) (maxAce : ℚ) (both : Bool)
    (pops : Nat → List (List ℚ)) (fuel : Nat) : Except Fault GeneticResult := do
  let _ ← makePopulation function rs 3 100 0
  runGeneticF rnd dec cv fl function double005 maxAce both pops fuel

/-- A row of `main`, `/repo/experiments/minimization/nsga2/nsga2_minimize_adders.cpp:16-27`. -/
def nsgaAdderRowF (rnd dec cv fl : ℚ → ℚ) (rs : Nat → Nat) (bits : Nat) (maxAce : ℚ) (pops : Nat → List (List ℚ))
    (fuel : Nat) (m : Mgr) : Except Fault (Nat × Nat × Nat × ℚ × ℚ) := do
  let function ← regularAdder (m := m) bits
  let result ← geneticExperimentF rnd dec cv fl rs function maxAce true pops fuel
  .ok (bits, nodeCount function, result.nodeCount, result.errorRate, result.ace)

/-- A row of `main`, `/repo/experiments/minimization/nsga2/nsga2_minimize_iscas.cpp:18-35`. -/
def nsgaIscasRowF (rnd dec cv fl : ℚ → ℚ) (asserts : Bool) (files : String → List AigEvent × Bool) (rs : Nat → Nat)
    (file : String) (pops : Nat → List (List ℚ)) (fuel : Nat) (m : Mgr) :
    Except Fault (String × Nat × Nat × ℚ) := do
  let parser ← aigRun (m := m) asserts (files ("./iscas85/" ++ file ++ ".aig")).1 {}
  let function ← getOutputs parser
  let result ← geneticExperimentF rnd dec cv fl rs function 0 false pops fuel
  .ok (file, nodeCount function, result.nodeCount, result.errorRate)

/-- A row of `main`, `/repo/experiments/minimization/nsga2/nsga2_minimize_epfl.cpp:19-38`. -/
def nsgaEpflRowF (rnd dec cv fl : ℚ → ℚ) (asserts : Bool) (files : String → List AigEvent × Bool) (rs : Nat → Nat)
    (file : Nat) (pops : Nat → List (List ℚ)) (fuel : Nat) (m : Mgr) : Except Fault (String × Nat × Nat × ℚ) := do
  let function ← loadEpfl (m := m) asserts files file
  let result ← geneticExperimentF rnd dec cv fl rs function 0 false pops fuel
  let name ← epflFilename file
  .ok (name, nodeCount function, result.nodeCount, result.errorRate)

end Verif

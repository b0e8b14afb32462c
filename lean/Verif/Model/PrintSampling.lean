import Verif.Model.Print
import Verif.Model.FloatSampling
import Verif.Model.FloatOperators

/-!
# What `improved_sampling` prints

On `double`s; the figures with exact numbers are in `Verif/Model/Experiments.lean`.
-/

namespace Verif

variable {m : Mgr}

/-- A line, `/repo/experiments/misc/improved_sampling.cpp:37`. -/
def samplingLine (n : Nat) (naive improved : ℚ) : List Char :=
  natText n ++ ";".toList ++ formatG naive ++ ";".toList ++ formatG improved ++ "\n".toList

/-- The body of the loop, `/repo/experiments/misc/improved_sampling.cpp:33-38`; `rs n` and `rs' n` are the random numbers
of the two calls. -/
def samplingStep (rnd : ℚ → ℚ) (original rounded : List (BDD m)) (readSize : Nat) (acts : List (Nat × ℚ))
    (rs : Nat → Nat → Nat → Nat) (rs' : Nat → Nat → Nat → Nat → Nat) (n : Nat) : Except Fault (List Char) := do
  let naive ← errorRateSamplingF rnd original rounded readSize n (rs n)
  let improved ← errorRateEfficientSamplingF rnd original rounded readSize n acts (rs' n)
  .ok (samplingLine n naive improved)

/-- The loop, `/repo/experiments/misc/improved_sampling.cpp:32-38`, from `n` on, with a number of tests of its condition. -/
def samplingLines (step : Nat → Except Fault (List Char)) : Nat → Nat → List (Except Fault (List Char))
  | 0, _ => []
  | k + 1, n => if n ≤ 20000 then step n :: samplingLines step k (n + 100) else []

/-- `main`, `/repo/experiments/misc/improved_sampling.cpp:10-41`: the text (the loop condition is tested at most 201
times). `acts` is the list of activations for given functions. -/
def improvedSamplingText (rnd : ℚ → ℚ) (asserts : Bool) (files : String → List AigEvent × Bool) (readSize : Nat)
    (acts : List (BDD m) → List (BDD m) → List (Nat × ℚ)) (rs : Nat → Nat → Nat → Nat)
    (rs' : Nat → Nat → Nat → Nat → Nat) : List Char × Option Fault :=
  match loadIscas asserts files 3 with
  | .error e => ([], some e)
  | .ok original =>
    let first : List Char := "Read file: ".toList ++ natText original.length ++ " outputs\n".toList
    match roundOutputs (fun orig => applyOperatorF rnd orig .subsetLight 52 10000000) original with
    | .error e => (first, some e)
    | .ok rounded =>
      let third : Except Fault (List Char) := do
        let rate ← errorRateF rnd original rounded
        .ok ("error rate: ".toList ++ formatG rate ++ "\n".toList)
      printRows (.ok first :: .ok "Approximated the function\n".toList :: third ::
        samplingLines (samplingStep rnd original rounded readSize (acts original rounded) rs rs') 201 100)

end Verif

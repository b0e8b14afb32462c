import Verif.Model.Experiments

/-! # The arguments of the runtime experiments -/

namespace Verif

/-- The arguments, `/repo/experiments/runtime/ace_steps.cpp:58-66`: file, level and whether to stop after the difference.
The loop variable is called `difference_only`, but `benchmark_ace_steps` takes 0 as "difference only" (line 17). -/
def aceStepsArgs : List (Nat × Nat × Bool) :=
  [false, true].flatMap fun differenceOnly =>
    [(1, 20, !differenceOnly), (1, 30, !differenceOnly), (2, 35, !differenceOnly), (4, 10, !differenceOnly)]

/-- The arguments, `/repo/experiments/runtime/operators.cpp:88-97`. -/
def operatorsArgs : List (Nat × Operator × Nat) :=
  [Operator.supersetHeavy, .subsetLight, .supersetLight, .subsetHeavy, .round, .roundBest, .positiveCofactor,
    .negativeCofactor].flatMap fun op => (List.range 40).map fun i => (1, op, i + 1)

/-- The arguments, `/repo/experiments/runtime/sampling_methods.cpp:59-72`: improved or not, samples and file. -/
def samplingArgs : List (Bool × Nat × Nat) :=
  [1, 2, 5].flatMap fun file => [false, true].flatMap fun x => samplingCounts.map fun n => (x, n, file)

end Verif

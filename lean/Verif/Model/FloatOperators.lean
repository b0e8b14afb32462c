import Verif.Model.Float
import Verif.Model.Helper

/-!
# The operators of the bucket search, with counts that are `double`s

`apply_operator` and the generators of operators, on the operators of `Verif.Model.Float`; with exact counts they are in
`Verif/Model/Bucket.lean`.
-/

namespace Verif

variable {m : Mgr}

/-- `apply_operator`, `/repo/src/minimization/bucket_minimization.cpp:193-213`. -/
def applyOperatorF (rnd : ℚ → ℚ) (b : BDD m) (op : Operator) (levelStart levelEnd : Nat) : Except Fault (BDD m) :=
  match op with
  | .positiveCofactor => .ok (cofactor b levelStart true)
  | .negativeCofactor => .ok (cofactor b levelStart false)
  | .subsetLight => roundAnyF rnd b levelStart levelEnd false true
  | .supersetHeavy => roundAnyF rnd b levelStart levelEnd true false
  | .subsetHeavy => roundAnyF rnd b levelStart levelEnd true true
  | .supersetLight => roundAnyF rnd b levelStart levelEnd false false
  | .roundBest => roundBestF rnd b levelStart levelEnd
  | .round => roundBddF rnd b levelStart

/-- `apply_operator` on a vector, `/repo/src/minimization/bucket_minimization.cpp:215-222`; also the lambda of
`generate_multi_bdd_operators`, lines 253-258. -/
def applyOperatorAllF (rnd : ℚ → ℚ) (op : Operator) (levelStart levelEnd : Nat) : OpFun m
  | [] => .ok []
  | b :: bs => do
      let b' ← applyOperatorF rnd b op levelStart levelEnd
      let bs' ← applyOperatorAllF rnd op levelStart levelEnd bs
      .ok (b' :: bs')

/-- The lambda of `generate_single_bdd_operators`, `/repo/src/minimization/bucket_minimization.cpp:235-237`. -/
def applyOperatorAtF (rnd : ℚ → ℚ) (i j : Nat) (op : Operator) : OpFun m := fun f => do
  let b ← vget f i
  let b' ← applyOperatorF rnd b op j j
  .ok (f.set i b')

/-- `generate_single_bdd_operators`, `/repo/src/minimization/bucket_minimization.cpp:224-242`. -/
def generateSingleBddOperatorsF (rnd : ℚ → ℚ) (function : List (BDD m)) (operators : List Operator) :
    List (OpFun m) :=
  (List.range function.length).flatMap fun i =>
    (List.range (terminalLevel [function])).flatMap fun j =>
      operators.map fun op => applyOperatorAtF rnd i j op

/-- `generate_multi_bdd_operators`, `/repo/src/minimization/bucket_minimization.cpp:244-262`. -/
def generateMultiBddOperatorsF (rnd : ℚ → ℚ) (function : List (BDD m)) (operators : List Operator) :
    List (OpFun m) :=
  (List.range (terminalLevel [function])).flatMap fun j =>
    operators.map fun op => applyOperatorAllF rnd op j j

/-- `generate_random_operators`, `/repo/src/minimization/bucket_minimization.cpp:264-282`. -/
def generateRandomOperatorsF (rnd : ℚ → ℚ) (function : List (BDD m)) (operators : List Operator) (rs : Nat → Nat) :
    Nat → Nat → Except Fault (List (OpFun m))
  | 0, _ => .ok []
  | n + 1, k => do
      if operators.length = 0 then .error .ub else
      let op ← vget operators (rs k % operators.length)
      if terminalLevel [function] = 0 then .error .ub else
      let level := rs (k + 1) % terminalLevel [function]
      let rest ← generateRandomOperatorsF rnd function operators rs n (k + 2)
      .ok (applyOperatorAllF rnd op level level :: rest)

/-- The construction of the operators, `/repo/src/minimization/minimization_helper.cpp:71-84`. -/
def operatorFunctionsF (rnd : ℚ → ℚ) (function : List (BDD m)) (info : MinimizationInfo) (rs : Nat → Nat) :
    Except Fault (List (OpFun m)) :=
  match info.operatorMode with
  | .singleBdd => .ok (generateSingleBddOperatorsF rnd function info.operators)
  | .multiBdd => .ok (generateMultiBddOperatorsF rnd function info.operators)
  | .random => match info.numOperatorFunctions with
    | some n => generateRandomOperatorsF rnd function info.operators rs n 0
    | none => .error .ub

end Verif

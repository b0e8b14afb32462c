import Verif.Model.Operators
import Mathlib.Algebra.Order.AbsoluteValue.Basic

/-!
# Counting with `double`s

`count_minterms`, `count_solutions`, the operators built on them and the random walk, with every operation on
`double`s rounded. `rnd` is the rounding: the result of an operation is `rnd` of the exact result. Comparisons are
exact. The other parts of the model take `double`s for exact numbers; this file is about the difference.
-/

namespace Verif

variable {m : Mgr}

/-- The finite values of an IEEE 754 `double` (binary64), the type used in
`/repo/src/util/cudd_helpers.cpp:74`. -/
def IsDouble (q : ℚ) : Prop :=
  ∃ (k e : ℤ), |k| ≤ 2 ^ 53 ∧ -1074 ≤ e ∧ e ≤ 970 ∧ q = k * 2 ^ e

/-- Round to nearest, the mode of `/repo/src/util/cudd_helpers.cpp:104`; how ties are broken is left open. Results
of more than `2 ^ 1023` are not specified. -/
structure Nearest (rnd : ℚ → ℚ) : Prop where
  isDouble : ∀ q, |q| ≤ 2 ^ 1023 → IsDouble (rnd q)
  near : ∀ q d, |q| ≤ 2 ^ 1023 → IsDouble d → |rnd q - q| ≤ |d - q|

/-- `count_minterms_rec`, `/repo/src/util/cudd_helpers.cpp:74-108`, with rounding in line 104. -/
def countMintermsRecF (rnd : ℚ → ℚ) : DD → Bool → NMap ℚ → ℚ × NMap ℚ
  | .one, neg, mp => match NMap.find mp ⟨neg, .one⟩ with
    | some q => (q, mp)
    | none =>
      let value : ℚ := if neg then 0 else 1
      (value, NMap.insert mp ⟨neg, .one⟩ value)
  | .node v t c e, neg, mp => match NMap.find mp ⟨neg, .node v t c e⟩ with
    | some q => (q, mp)
    | none =>
      let high := countMintermsRecF rnd t neg mp
      let low := countMintermsRecF rnd e (neg ^^ c) high.2
      let minTerms := rnd (rnd (high.1 / 2) + rnd (low.1 / 2))
      (minTerms, NMap.insert low.2 ⟨neg, .node v t c e⟩ minTerms)

/-- `count_minterms`, `/repo/src/util/cudd_helpers.cpp:110-116`. -/
def countMintermsF (rnd : ℚ → ℚ) (f : BDD m) : NMap ℚ := (countMintermsRecF rnd f.edge.n f.edge.neg []).2

/-- `count_solutions_rec`, `/repo/src/util/cudd_helpers.cpp:118-159`, with rounding in lines 154-155; the powers of
two are exact. -/
def countSolutionsRecF (rnd : ℚ → ℚ) (terminalLevel : Nat) : DD → Bool → NMap ℚ → ℚ × NMap ℚ
  | .one, neg, mp => match NMap.find mp ⟨neg, .one⟩ with
    | some q => (q, mp)
    | none =>
      let value : ℚ := if neg then 0 else 1
      (value, NMap.insert mp ⟨neg, .one⟩ value)
  | .node v t c e, neg, mp => match NMap.find mp ⟨neg, .node v t c e⟩ with
    | some q => (q, mp)
    | none =>
      let high := countSolutionsRecF rnd terminalLevel t neg mp
      let low := countSolutionsRecF rnd terminalLevel e (neg ^^ c) high.2
      let solutions :=
        rnd (rnd (high.1 * 2 ^ ((nodeLevel terminalLevel t + 2 ^ 64 - v - 1) % 2 ^ 64)) +
          rnd (low.1 * 2 ^ ((nodeLevel terminalLevel e + 2 ^ 64 - v - 1) % 2 ^ 64)))
      (solutions, NMap.insert low.2 ⟨neg, .node v t c e⟩ solutions)

/-- `count_solutions`, `/repo/src/util/cudd_helpers.cpp:161-167`. -/
def countSolutionsF (rnd : ℚ → ℚ) (f : BDD m) : NMap ℚ :=
  (countSolutionsRecF rnd (terminalLevel [[f]]) f.edge.n f.edge.neg []).2

/-- `round_best_rec`, `/repo/src/approximation_operators/approximation_operators.cpp:264-373`, with rounding of the
differences in the conditions. -/
def roundBestRecF (rnd : ℚ → ℚ) (ls le : Nat) (cnt : NMap ℚ) :
    (d : DD) → d.WF m → Bool → NMap (BDD m) → Except Fault (BDD m × NMap (BDD m))
  | .one, h, neg, mp => .ok (BDD.ofNode neg .one h, mp)
  | .node v t c e, h, neg, mp =>
    match NMap.find mp ⟨neg, .node v t c e⟩ with
    | some r => .ok (r, mp)
    | none =>
      if v < ls then do
        let tb ← roundBestRecF rnd ls le cnt t h.1 neg mp
        let eb ← roundBestRecF rnd ls le cnt e h.2.1 (neg ^^ c) tb.2
        let neW := BDD.ite (.var v) tb.1 eb.1
        .ok (neW, NMap.insert eb.2 ⟨neg, .node v t c e⟩ neW)
      else if v ≤ le then
        match NMap.find cnt ⟨neg, t⟩, NMap.find cnt ⟨neg ^^ c, e⟩ with
        | some tc, some ec =>
          if tc < ec ∧ tc < rnd (1 - ec) then do
            let eb ← roundBestRecF rnd ls le cnt e h.2.1 (neg ^^ c) mp
            let neW := BDD.ite (.var v) .zero eb.1
            .ok (neW, NMap.insert eb.2 ⟨neg, .node v t c e⟩ neW)
          else if ec < tc ∧ ec < rnd (1 - tc) then do
            let tb ← roundBestRecF rnd ls le cnt t h.1 neg mp
            let neW := BDD.ite (.var v) tb.1 .zero
            .ok (neW, NMap.insert tb.2 ⟨neg, .node v t c e⟩ neW)
          else if tc > ec ∧ tc > rnd (1 - ec) then do
            let eb ← roundBestRecF rnd ls le cnt e h.2.1 (neg ^^ c) mp
            let neW := BDD.ite (.var v) .one eb.1
            .ok (neW, NMap.insert eb.2 ⟨neg, .node v t c e⟩ neW)
          else if ec > tc ∧ ec > rnd (1 - tc) then do
            let tb ← roundBestRecF rnd ls le cnt t h.1 neg mp
            let neW := BDD.ite (.var v) tb.1 .one
            .ok (neW, NMap.insert tb.2 ⟨neg, .node v t c e⟩ neW)
          else
            let neW := BDD.ite (.var v) (if tc > 1 / 2 then .one else .zero)
              (if ec > 1 / 2 then .one else .zero)
            .ok (neW, NMap.insert mp ⟨neg, .node v t c e⟩ neW)
        | _, _ => .error .logicError
      else .ok (BDD.ofNode neg (.node v t c e) h, mp)

/-- `round_any`, `/repo/src/approximation_operators/approximation_operators.cpp:375-388`. -/
def roundAnyF (rnd : ℚ → ℚ) (f : BDD m) (ls le : Nat) (removeHeavy subset : Bool) : Except Fault (BDD m) := do
  let r ← removeChildrenRec ls le (countMintermsF rnd f) removeHeavy subset f.edge.n f.wf f.edge.neg []
  .ok r.1

/-- `round_bdd`, `/repo/src/approximation_operators/approximation_operators.cpp:64-70`. -/
def roundBddF (rnd : ℚ → ℚ) (f : BDD m) (level : Nat) : Except Fault (BDD m) := do
  let r ← roundRec level (countMintermsF rnd f) f.edge.n f.wf f.edge.neg []
  .ok r.1

/-- `round_best`, `/repo/src/approximation_operators/approximation_operators.cpp:72-81`. -/
def roundBestF (rnd : ℚ → ℚ) (f : BDD m) (ls le : Nat) : Except Fault (BDD m) := do
  let r ← roundBestRecF rnd ls le (countMintermsF rnd f) f.edge.n f.wf f.edge.neg []
  .ok r.1

/-- `round_up`, `/repo/src/approximation_operators/approximation_operators.cpp:83-92`. -/
def roundUpF (rnd : ℚ → ℚ) (f : BDD m) (ls le : Nat) : Except Fault (BDD m) := do
  let r ← removeChildrenRec ls le (countSolutionsF rnd f) false false f.edge.n f.wf f.edge.neg []
  .ok r.1

/-- `round_down`, `/repo/src/approximation_operators/approximation_operators.cpp:94-103`. -/
def roundDownF (rnd : ℚ → ℚ) (f : BDD m) (ls le : Nat) : Except Fault (BDD m) := do
  let r ← removeChildrenRec ls le (countSolutionsF rnd f) false true f.edge.n f.wf f.edge.neg []
  .ok r.1

/-- Loop of `random_satisfying_input`, `/repo/src/util/cudd_helpers.cpp:177-210`, with rounding in lines 198-199. -/
def randomSatLoopF (rnd : ℚ → ℚ) (cnt : NMap ℚ) (rs : Nat → Nat) : Nat → Nat → Edge → Except Fault (List Nat)
  | 0, _, _ => .ok []
  | k + 1, level, ⟨neg, .one⟩ => do
      let rest ← randomSatLoopF rnd cnt rs k (level + 1) ⟨neg, .one⟩
      .ok (rs level % 2 :: rest)
  | k + 1, level, ⟨neg, .node v t c e⟩ =>
      if level < v then do
        let rest ← randomSatLoopF rnd cnt rs k (level + 1) ⟨neg, .node v t c e⟩
        .ok (rs level % 2 :: rest)
      else match NMap.find cnt ⟨neg, t⟩, NMap.find cnt ⟨neg ^^ c, e⟩ with
        | some tw, some ew =>
          let r : ℚ := rnd ((rs level : ℚ) / randMax)
          if rnd (tw + ew) ≠ 0 ∧ r ≤ rnd (tw / rnd (tw + ew)) then do
            let rest ← randomSatLoopF rnd cnt rs k (level + 1) ⟨neg, t⟩
            .ok (1 :: rest)
          else do
            let rest ← randomSatLoopF rnd cnt rs k (level + 1) ⟨neg ^^ c, e⟩
            .ok (0 :: rest)
        | _, _ => .error .outOfRange

/-- `random_satisfying_input`, `/repo/src/util/cudd_helpers.cpp:169-213`. -/
def randomSatisfyingInputF (rnd : ℚ → ℚ) (f : BDD m) (cnt : NMap ℚ) (maxLevel : Nat) (rs : Nat → Nat) :
    Except Fault (List Nat) := randomSatLoopF rnd cnt rs maxLevel 0 f.edge

end Verif

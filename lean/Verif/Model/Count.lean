import Verif.Model.CuddHelpers

/-!
# `src/util/cudd_helpers.cpp`: counting on nodes and random satisfying inputs

`std::map<DdNode*, T>` is an association list with the newest entry first; keys are handles
(node and complement bit).
-/

namespace Verif

variable {m : Mgr}

/-- `std::map<DdNode*, T>`. -/
abbrev NMap (α : Type _) := List (Edge × α)

/-- `map.find`. -/
def NMap.find {α : Type _} : NMap α → Edge → Option α
  | [], _ => none
  | (k, v) :: rest, e => if k = e then some v else NMap.find rest e

/-- `map[key] = value`. -/
def NMap.insert {α : Type _} (mp : NMap α) (k : Edge) (v : α) : NMap α := (k, v) :: mp

/-- `count_minterms_rec`, `/repo/src/util/cudd_helpers.cpp:74-108`: the node is given as its regular
part and its complement bit, the result is the count and the extended map.  A constant has
`Cudd_V = 1`; complemented, the code turns it into 0. -/
def countMintermsRec : DD → Bool → NMap ℚ → ℚ × NMap ℚ
  | .one, neg, mp => match NMap.find mp ⟨neg, .one⟩ with
    | some q => (q, mp)
    | none =>
      let value : ℚ := if neg then 0 else 1
      (value, NMap.insert mp ⟨neg, .one⟩ value)
  | .node v t c e, neg, mp => match NMap.find mp ⟨neg, .node v t c e⟩ with
    | some q => (q, mp)
    | none =>
      let high := countMintermsRec t neg mp
      let low := countMintermsRec e (neg ^^ c) high.2
      let minTerms := high.1 / 2 + low.1 / 2
      (minTerms, NMap.insert low.2 ⟨neg, .node v t c e⟩ minTerms)

/-- `count_minterms`, `/repo/src/util/cudd_helpers.cpp:110-116`. -/
def countMinterms (f : BDD m) : NMap ℚ := (countMintermsRec f.edge.n f.edge.neg []).2

/-- The level the code gives to a node: its variable *index*, or the terminal level,
`/repo/src/util/cudd_helpers.cpp:150-152`. -/
def nodeLevel (terminalLevel : Nat) : DD → Nat
  | .one => terminalLevel
  | .node v _ _ _ => v

/-- `count_solutions_rec`, `/repo/src/util/cudd_helpers.cpp:118-159`.  The exponents are
`unsigned long` and wrap modulo 2^64 if a child has a smaller index than its parent (`double`
infinity in the code, the corresponding exact number here). -/
def countSolutionsRec (terminalLevel : Nat) : DD → Bool → NMap ℚ → ℚ × NMap ℚ
  | .one, neg, mp => match NMap.find mp ⟨neg, .one⟩ with
    | some q => (q, mp)
    | none =>
      let value : ℚ := if neg then 0 else 1
      (value, NMap.insert mp ⟨neg, .one⟩ value)
  | .node v t c e, neg, mp => match NMap.find mp ⟨neg, .node v t c e⟩ with
    | some q => (q, mp)
    | none =>
      let high := countSolutionsRec terminalLevel t neg mp
      let low := countSolutionsRec terminalLevel e (neg ^^ c) high.2
      let solutions :=
        high.1 * 2 ^ ((nodeLevel terminalLevel t + 2 ^ 64 - v - 1) % 2 ^ 64) +
        low.1 * 2 ^ ((nodeLevel terminalLevel e + 2 ^ 64 - v - 1) % 2 ^ 64)
      (solutions, NMap.insert low.2 ⟨neg, .node v t c e⟩ solutions)

/-- `count_solutions`, `/repo/src/util/cudd_helpers.cpp:161-167`. -/
def countSolutions (f : BDD m) : NMap ℚ :=
  (countSolutionsRec (terminalLevel [[f]]) f.edge.n f.edge.neg []).2

/-- `RAND_MAX` of glibc. -/
def randMax : Nat := 2147483647

/-- Loop of `random_satisfying_input`, `/repo/src/util/cudd_helpers.cpp:177-210`, from iteration
`level` for `k` more iterations; every iteration draws exactly one random number, `rs level` is the
one drawn at `level`.  `minterm_count.at` throws `out_of_range` for a missing node.  A constant node
has level `max_level`, which no iteration reaches.  A `0/0` quotient is NaN and compares false. -/
def randomSatLoop (cnt : NMap ℚ) (rs : Nat → Nat) : Nat → Nat → Edge → Except Fault (List Nat)
  | 0, _, _ => .ok []
  | k + 1, level, ⟨neg, .one⟩ => do
      let rest ← randomSatLoop cnt rs k (level + 1) ⟨neg, .one⟩
      .ok (rs level % 2 :: rest)
  | k + 1, level, ⟨neg, .node v t c e⟩ =>
      if level < v then do
        let rest ← randomSatLoop cnt rs k (level + 1) ⟨neg, .node v t c e⟩
        .ok (rs level % 2 :: rest)
      else match NMap.find cnt ⟨neg, t⟩, NMap.find cnt ⟨neg ^^ c, e⟩ with
        | some tw, some ew =>
          let r : ℚ := (rs level : ℚ) / randMax
          if tw + ew ≠ 0 ∧ r ≤ tw / (tw + ew) then do
            let rest ← randomSatLoop cnt rs k (level + 1) ⟨neg, t⟩
            .ok (1 :: rest)
          else do
            let rest ← randomSatLoop cnt rs k (level + 1) ⟨neg ^^ c, e⟩
            .ok (0 :: rest)
        | _, _ => .error .outOfRange

/-- `random_satisfying_input`, `/repo/src/util/cudd_helpers.cpp:169-213`. -/
def randomSatisfyingInput (f : BDD m) (cnt : NMap ℚ) (maxLevel : Nat) (rs : Nat → Nat) :
    Except Fault (List Nat) := randomSatLoop cnt rs maxLevel 0 f.edge

end Verif

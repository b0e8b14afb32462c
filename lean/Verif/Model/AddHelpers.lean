import Verif.ADD.ADD
import Verif.Model.Metrics

/-!
# `src/util/cudd_helpers.cpp` and `src/error_metrics`: functions on ADDs
-/

namespace Verif

variable {m : Mgr}

/-- `const_ADD_value`, `/repo/src/util/cudd_helpers.cpp:215-223`.  Converting a negative value or one
beyond 32 bits to `unsigned int` is undefined. -/
def constADDValue (a : ADD m) : Except Fault Nat := match a.d with
  | .const q => if 0 ≤ ⌊q⌋ ∧ ⌊q⌋ < 2 ^ 32 then .ok ⌊q⌋.toNat else .error .ub
  | .node _ _ _ => .ok 0

/-- `std::map<DdNode*, unsigned long>` for ADD nodes. -/
abbrev AMap := List (AD × Nat)

/-- `map[key]`, 0 if absent. -/
def AMap.get : AMap → AD → Nat
  | [], _ => 0
  | (k, v) :: rest, e => if k = e then v else AMap.get rest e

/-- State of the level loop of `count_paths`, `/repo/src/util/cudd_helpers.cpp:233-238`:
`levels[l]` (a stack, top first; the vector is a function here, so its growth is not modelled),
`node_to_count` and `visited`. -/
structure PathState where
  levels : Nat → List AD
  count : AMap
  visited : List AD

/-- Level of a child: `terminal_level` for a constant, otherwise the variable *index*,
`/repo/src/util/cudd_helpers.cpp:255-256`, `267-268`. -/
def childLevel (terminalLevel : Nat) : AD → Nat
  | .const _ => terminalLevel
  | .node v _ _ => v

/-- One child, `/repo/src/util/cudd_helpers.cpp:255-265` (and `267-277`): shifting by a negative number
or by 64 or more is undefined, the `unsigned long` count wraps. -/
def visitChild (terminalLevel level current : Nat) (child : AD) (s : PathState) :
    Except Fault PathState :=
  let cl := childLevel terminalLevel child
  if cl ≤ level ∨ cl - level - 1 ≥ 64 then .error .ub
  else
    let count' := (child, (s.count.get child + current * 2 ^ (cl - level - 1)) % 2 ^ 64) :: s.count
    if child ∈ s.visited then .ok { s with count := count' }
    else .ok ⟨Function.update s.levels cl (child :: s.levels cl), count', child :: s.visited⟩

/-- Body of the inner loop, `/repo/src/util/cudd_helpers.cpp:245-277`, for one node. -/
def visitNode (terminalLevel level : Nat) (s : PathState) : AD → Except Fault PathState
  | .const _ => .ok s
  | .node v t e => do
      let current := s.count.get (.node v t e)
      let s1 ← visitChild terminalLevel level current t s
      visitChild terminalLevel level current e s1

/-- Inner loop over the copied stack of one level, `/repo/src/util/cudd_helpers.cpp:242-278`. -/
def visitLevel (terminalLevel level : Nat) : List AD → PathState → Except Fault PathState
  | [], s => .ok s
  | n :: ns, s => do
      let s1 ← visitNode terminalLevel level s n
      visitLevel terminalLevel level ns s1

/-- Outer loop, `/repo/src/util/cudd_helpers.cpp:239-279`, for `k` more levels.  It runs to
`levels.size()`, which is at most `terminal_level + 1`; levels that were never touched are empty. -/
def pathLoop (terminalLevel : Nat) : Nat → Nat → PathState → Except Fault PathState
  | 0, _, s => .ok s
  | k + 1, level, s => do
      let s1 ← visitLevel terminalLevel level (s.levels level) s
      pathLoop terminalLevel k (level + 1) s1

/-- `count_paths`, `/repo/src/util/cudd_helpers.cpp:225-282`. -/
def countPaths (root : AD) (terminalLevel : Nat) : Except Fault AMap := match root with
  | .const q => .ok [(.const q, 1)]
  | .node v t e => do
      let s ← pathLoop terminalLevel (terminalLevel + 1) 0
        ⟨fun l => if l = 0 then [.node v t e] else [], [(.node v t e, 1)], [.node v t e]⟩
      .ok s.count

/-- `term_level`, `/repo/src/util/cudd_helpers.cpp:291-294`. -/
def termLevel (a : ADD m) : Nat := a.supportIndices.foldl max 0 + 1

/-- Pushing a child that was not visited, `/repo/src/util/cudd_helpers.cpp:311-324`. -/
def pushNew (c : AD) (p : List AD × List AD) : List AD × List AD :=
  if c ∈ p.2 then p else (c :: p.1, c :: p.2)

/-- Search loop of `add_terminal_values`, `/repo/src/util/cudd_helpers.cpp:299-328`: stack, visited set.
The bound on the number of iterations is the number of nodes. -/
def terminalLoop (pc : AMap) : Nat → List AD → List AD → List (ℚ × Nat)
  | 0, _, _ => []
  | _ + 1, [], _ => []
  | k + 1, .const q :: stack, visited => (q, pc.get (.const q)) :: terminalLoop pc k stack visited
  | k + 1, .node _ t e :: stack, visited =>
      let p := pushNew e (pushNew t (stack, visited))
      terminalLoop pc k p.1 p.2

/-- `add_terminal_values`, `/repo/src/util/cudd_helpers.cpp:284-330`. -/
def addTerminalValues (a : ADD m) : Except Fault (List (ℚ × Nat)) := do
  let pc ← countPaths a.d (termLevel a)
  .ok (terminalLoop pc a.d.subs.length [a.d] [a.d])

/-- Loop of `bdd_forest_to_add`, `/repo/src/util/cudd_helpers.cpp:347-352`, over the bits below the
sign bit, most significant first. -/
def forestLoop : List (BDD m) → ADD m → ADD m → ADD m × ADD m
  | [], result, power => (result, power)
  | b :: bs, result, power =>
      forestLoop bs ((result.mul (.const 2)).add (.ofBDD b)) (power.mul (.const 2))

/-- `bdd_forest_to_add`, `/repo/src/util/cudd_helpers.cpp:332-356`.  For an empty two's complement
vector `rbegin() + 1` and `back()` are undefined. -/
def bddForestToAdd (r : NumRep) (bdds : List (BDD m)) : Except Fault (ADD m) :=
  match (withSignBit r bdds).reverse with
  | [] => .error .ub
  | sign :: rest =>
      let p := forestLoop rest (.const 0) (.const 1)
      .ok (p.1.sub ((ADD.ofBDD sign).mul p.2))

/-- `xor_difference_add`, `/repo/src/util/cudd_helpers.cpp:358-369`: `f_hat` is indexed up to the
length of `f`. -/
def xorDifferenceAdd (f fHat : List (BDD m)) : Except Fault (ADD m) :=
  if fHat.length < f.length then .error .ub
  else bddForestToAdd .baseTwo (List.zipWith BDD.xor f fHat)

/-- `absolute_difference_add`, `/repo/src/util/cudd_helpers.cpp:371-403` with the operator
`add_absolute_difference_apply`. -/
def absoluteDifferenceAdd (r : NumRep) (f fHat : List (BDD m)) : Except Fault (ADD m) := do
  let a ← bddForestToAdd r f
  let b ← bddForestToAdd r fHat
  .ok (ADD.apply (fun p q => |p - q|) a b)

/-- `worst_case_error_add`, `/repo/src/error_metrics/worst_case_error.cpp:68-84`. -/
def worstCaseErrorAdd (r : NumRep) (f fHat : List (BDD m)) : Except Fault Nat := do
  let diff ← absoluteDifferenceAdd r f fHat
  let tv ← addTerminalValues diff
  .ok (tv.foldl (fun mx p => max (toU256 p.1) mx) 0)

/-- `average_case_error_add`, `/repo/src/error_metrics/average_case_error.cpp:87-106`. -/
def averageCaseErrorAdd (r : NumRep) (f fHat : List (BDD m)) : Except Fault ℚ := do
  let diff ← absoluteDifferenceAdd r f fHat
  let tv ← addTerminalValues diff
  let sum := tv.foldl (fun s p => u256 (s + u256 (toU256 p.1 * p.2))) 0
  let pathSum := tv.foldl (fun s p => u256 (s + p.2)) 0
  fdiv sum pathSum

/-- `mean_squared_error_add`, `/repo/src/error_metrics/average_case_error.cpp:108-128`. -/
def meanSquaredErrorAdd (r : NumRep) (f fHat : List (BDD m)) : Except Fault ℚ := do
  let diff ← absoluteDifferenceAdd r f fHat
  let tv ← addTerminalValues diff
  let sum := tv.foldl (fun s p => u256 (s + u256 (u256 (toU256 p.1 * toU256 p.1) * p.2))) 0
  let pathSum := tv.foldl (fun s p => u256 (s + p.2)) 0
  fdiv sum pathSum

/-- `unsigned long` arithmetic wraps. -/
def u64 (n : Nat) : Nat := n % 2 ^ 64

/-- `error_rate_add`, `/repo/src/error_metrics/error_rate.cpp:143-161`. -/
def errorRateAdd (f fHat : List (BDD m)) : Except Fault ℚ := do
  let diff ← xorDifferenceAdd f fHat
  let tv ← addTerminalValues diff
  let nonZero := tv.foldl (fun s p => if p.1 ≠ 0 then u64 (s + p.2) else s) 0
  let total := tv.foldl (fun s p => u64 (s + p.2)) 0
  fdiv nonZero total

/-- `__builtin_popcountll` of a `double`: the conversion to `unsigned long long` truncates and is
undefined outside of the range. -/
def popcountll (q : ℚ) : Except Fault Nat :=
  if 0 ≤ q ∧ q < 2 ^ 64 then
    .ok (((List.range 64).filter (fun i => ⌊q⌋.toNat.testBit i)).length)
  else .error .ub

/-- Sum of `worst_case_bit_flip_error`, `/repo/src/error_metrics/worst_case_bit_flip_error.cpp:13-17`. -/
def bitErrorSum : List (BDD m) → List (BDD m) → ADD m → ADD m
  | a :: as, b :: bs, acc => bitErrorSum as bs (acc.add (.ofBDD (a.xor b)))
  | _, _, acc => acc

/-- `worst_case_bit_flip_error`, `/repo/src/error_metrics/worst_case_bit_flip_error.cpp:7-20`. -/
def worstCaseBitFlipError (f fHat : List (BDD m)) : Except Fault Nat :=
  if f.length ≠ fHat.length then .error .assertion
  else constADDValue (bitErrorSum f fHat (.const 0)).findMax

/-- Loop of `worst_case_bit_flip_error_add`,
`/repo/src/error_metrics/worst_case_bit_flip_error.cpp:30-35`. -/
def maxFlipLoop : List (ℚ × Nat) → Nat → Except Fault Nat
  | [], mx => .ok mx
  | p :: ps, mx => do
      let c ← popcountll p.1
      maxFlipLoop ps (max c mx)

/-- `worst_case_bit_flip_error_add`, `/repo/src/error_metrics/worst_case_bit_flip_error.cpp:22-37`. -/
def worstCaseBitFlipErrorAdd (f fHat : List (BDD m)) : Except Fault Nat := do
  let diff ← xorDifferenceAdd f fHat
  let tv ← addTerminalValues diff
  maxFlipLoop tv 0

/-- Loop of `average_bit_flip_error_add`, `/repo/src/error_metrics/average_bit_flip_error.cpp:41-49`. -/
def avgFlipLoop : List (ℚ × Nat) → Nat → Nat → Except Fault (Nat × Nat)
  | [], s, total => .ok (s, total)
  | p :: ps, s, total => do
      let c ← popcountll p.1
      avgFlipLoop ps (u64 (s + u64 (c * p.2))) (u64 (total + p.2))

/-- `average_bit_flip_error_add`, `/repo/src/error_metrics/average_bit_flip_error.cpp:34-51`. -/
def averageBitFlipErrorAdd (f fHat : List (BDD m)) : Except Fault ℚ := do
  let diff ← xorDifferenceAdd f fHat
  let tv ← addTerminalValues diff
  let p ← avgFlipLoop tv 0 0
  fdiv p.1 p.2

/-- The ADD of relative errors, `/repo/src/error_metrics/worst_case_relative_error.cpp:17-20` and
`/repo/src/error_metrics/average_case_relative_error.cpp:61-64`. -/
def relativeDiffAdd (r : NumRep) (f fHat : List (BDD m)) : Except Fault (ADD m) := do
  let diff ← absoluteDifferenceAdd r f fHat
  let fAbs ← bddAbs r f
  let den ← bddForestToAdd .baseTwo fAbs
  .ok (diff.div (den.maximum (.const 1)))

/-- `wcre_add`, `/repo/src/error_metrics/worst_case_relative_error.cpp:12-30`. -/
def wcreAdd (r : NumRep) (f fHat : List (BDD m)) : Except Fault ℚ := do
  let rd ← relativeDiffAdd r f fHat
  let tv ← addTerminalValues rd
  .ok (tv.foldl (fun l p => max l p.1) 0)

/-- `acre_add`, `/repo/src/error_metrics/average_case_relative_error.cpp:54-78`. -/
def acreAdd (r : NumRep) (f fHat : List (BDD m)) : Except Fault ℚ := do
  let rd ← relativeDiffAdd r f fHat
  let tv ← addTerminalValues rd
  fdiv (tv.foldl (fun s p => s + p.1 * p.2) 0) (tv.foldl (fun s p => u256 (s + p.2)) 0 : Nat)

end Verif

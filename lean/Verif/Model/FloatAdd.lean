import Verif.Model.AddHelpers
import Verif.Model.FloatMetrics

/-!
# The metrics on ADDs with `double`s and CUDD's table of constants

The terminals of a CUDD ADD are `double`s, and `cuddUniqueConst` does not always make a terminal for the value it
is asked for: values below `epsilon` (1e-12 unless `Cudd_SetEpsilon` is called, which abo does not do) become 0, and
a constant in the same hash bucket that differs by less than `epsilon` is taken instead. Which constants share a
bucket depends on the hash function and on the size of the table, which grows. Here any constant created before
that is close enough may be taken; a constant that has been collected meanwhile may be taken, too, which allows more
than CUDD does. `Verif/Model/AddHelpers.lean` is the same with exact values.

CUDD's operators have shortcuts (0 + g, 1 * g and so on) that create no constants; those results can also arise
here. Results in the computed table likewise.
-/

namespace Verif

variable {m : Mgr}

/-- The arithmetic used in `/repo/src/util/cudd_helpers.cpp:332-403`: the rounding of a `double` operation,
`epsilon`, and the choices among close constants. -/
structure AddEnv where
  rnd : ℚ → ℚ
  eps : ℚ
  choice : Nat → Nat

/-- The constants made so far in the manager passed to `/repo/src/util/cudd_helpers.cpp:332`, and the number of
lookups. -/
structure CTab where
  consts : List ℚ
  time : Nat

/-- `cuddUniqueConst`, called from `Cudd_addConst` in `/repo/src/util/cudd_helpers.cpp:381` and from CUDD's
operators. The difference of two `double`s is compared with `epsilon` after rounding in CUDD; that gives the same
answer, as values this close have an exact difference. -/
def addConst (A : AddEnv) (v : ℚ) (s : CTab) : ℚ × CTab :=
  let w := if |v| < A.eps then 0 else v
  match (s.consts.filter (fun r => decide (r = w ∨ |r - w| < A.eps)))[A.choice s.time]? with
  | some r => (r, ⟨s.consts, s.time + 1⟩)
  | none => (w, ⟨w :: s.consts, s.time + 1⟩)

/-- `Cudd_addApply`, used in `/repo/src/util/cudd_helpers.cpp:398-400`: then-branch first. -/
def AD.applyE (m : Mgr) (A : AddEnv) (op : ℚ → ℚ → ℚ) : Nat → AD → AD → CTab → AD × CTab
  | 0, a, b, s => let p := addConst A (op a.value b.value) s; (.const p.1, p.2)
  | k + 1, a, b, s => match AD.top2 m a b with
    | none => let p := addConst A (op a.value b.value) s; (.const p.1, p.2)
    | some v =>
      let t := AD.applyE m A op k (a.cof v true) (b.cof v true) s
      let e := AD.applyE m A op k (a.cof v false) (b.cof v false) t.2
      (AD.mk' v t.1 e.1, e.2)

theorem AD.applyE_wf {m : Mgr} {A : AddEnv} {op : ℚ → ℚ → ℚ} : (k : Nat) → (a b : AD) → (s : CTab) → a.WF m → b.WF m →
    (AD.applyE m A op k a b s).1.WF m ∧
      ∀ l, a.Below m l → b.Below m l → (AD.applyE m A op k a b s).1.Below m l
  | 0, a, b, s, ha, hb => ⟨trivial, fun _ _ _ => trivial⟩
  | k + 1, a, b, s, ha, hb => by
      simp only [AD.applyE]
      split
      · exact ⟨trivial, fun _ _ _ => trivial⟩
      · rename_i v h
        obtain ⟨hA, hB, hor⟩ := AD.top2_spec h
        obtain ⟨w1, b1⟩ := AD.applyE_wf (A := A) (op := op) k (a.cof v true) (b.cof v true) s (AD.cof_wf ha v true)
          (AD.cof_wf hb v true)
        obtain ⟨w2, b2⟩ := AD.applyE_wf (A := A) (op := op) k (a.cof v false) (b.cof v false)
          (AD.applyE m A op k (a.cof v true) (b.cof v true) s).2 (AD.cof_wf ha v false) (AD.cof_wf hb v false)
        have bv1 := b1 (m.lvl v) (AD.cof_below ha true hA) (AD.cof_below hb true hB)
        have bv2 := b2 (m.lvl v) (AD.cof_below ha false hA) (AD.cof_below hb false hB)
        exact ⟨AD.wf_mk' w1 w2 bv1 bv2, fun l hal hbl => AD.below_mk' bv1 (AD.top2_level h hal hbl)⟩

/-- `Cudd_addApply` on handles, `/repo/src/util/cudd_helpers.cpp:398-400`. -/
def ADD.applyE (A : AddEnv) (op : ℚ → ℚ → ℚ) (f g : ADD m) (s : CTab) : ADD m × CTab :=
  let r := AD.applyE m A op (f.d.size + g.d.size) f.d g.d s
  (⟨r.1, (AD.applyE_wf _ _ _ _ f.wf g.wf).1⟩, r.2)

/-- `ADD::operator+`, `/repo/src/util/cudd_helpers.cpp:343`, `351`. -/
def ADD.addE (A : AddEnv) (f g : ADD m) (s : CTab) : ADD m × CTab := ADD.applyE A (fun p q => A.rnd (p + q)) f g s
/-- `ADD::operator-`, `/repo/src/util/cudd_helpers.cpp:353`. -/
def ADD.subE (A : AddEnv) (f g : ADD m) (s : CTab) : ADD m × CTab := ADD.applyE A (fun p q => A.rnd (p - q)) f g s
/-- `ADD::operator*`, `/repo/src/util/cudd_helpers.cpp:349-350`. -/
def ADD.mulE (A : AddEnv) (f g : ADD m) (s : CTab) : ADD m × CTab := ADD.applyE A (fun p q => A.rnd (p * q)) f g s
/-- `ADD::Divide`, `/repo/src/error_metrics/worst_case_relative_error.cpp:19`. -/
def ADD.divE (A : AddEnv) (f g : ADD m) (s : CTab) : ADD m × CTab := ADD.applyE A (fun p q => A.rnd (p / q)) f g s

/-- Loop of `bdd_forest_to_add`, `/repo/src/util/cudd_helpers.cpp:347-352`. -/
def forestLoopE (A : AddEnv) (two : ADD m) : List (BDD m) → ADD m → ADD m → CTab → (ADD m × ADD m) × CTab
  | [], result, power, s => ((result, power), s)
  | b :: bs, result, power, s =>
      let r1 := result.mulE A two s
      let p1 := power.mulE A two r1.2
      let r2 := r1.1.addE A (.ofBDD b) p1.2
      forestLoopE A two bs r2.1 p1.1 r2.2

/-- `bdd_forest_to_add`, `/repo/src/util/cudd_helpers.cpp:332-356`. `addZero` and `addOne` are kept by the manager. -/
def bddForestToAddE (A : AddEnv) (r : NumRep) (bdds : List (BDD m)) (s : CTab) : Except Fault (ADD m × CTab) :=
  match (withSignBit r bdds).reverse with
  | [] => .error .ub
  | sign :: rest =>
      let two := ADD.addE A (.const 1) (.const 1) s
      let p := forestLoopE A two.1 rest (.const 0) (.const 1) two.2
      let w := (ADD.ofBDD sign).mulE A p.1.2 p.2
      .ok (p.1.1.subE A w.1 w.2)

/-- `xor_difference_add`, `/repo/src/util/cudd_helpers.cpp:358-369`. -/
def xorDifferenceAddE (A : AddEnv) (f fHat : List (BDD m)) (s : CTab) : Except Fault (ADD m × CTab) :=
  if fHat.length < f.length then .error .ub
  else bddForestToAddE A .baseTwo (List.zipWith BDD.xor f fHat) s

/-- `absolute_difference_add`, `/repo/src/util/cudd_helpers.cpp:371-403`. -/
def absoluteDifferenceAddE (A : AddEnv) (r : NumRep) (f fHat : List (BDD m)) (s : CTab) :
    Except Fault (ADD m × CTab) := do
  let a ← bddForestToAddE A r f s
  let b ← bddForestToAddE A r fHat a.2
  .ok (ADD.applyE A (fun p q => |A.rnd (p - q)|) a.1 b.1 b.2)

/-- `worst_case_error_add`, `/repo/src/error_metrics/worst_case_error.cpp:68-84`. -/
def worstCaseErrorAddE (A : AddEnv) (r : NumRep) (f fHat : List (BDD m)) (s : CTab) : Except Fault (Nat × CTab) := do
  let diff ← absoluteDifferenceAddE A r f fHat s
  let tv ← addTerminalValues diff.1
  .ok (tv.foldl (fun mx p => max (toU256 p.1) mx) 0, diff.2)

/-- `average_case_error_add`, `/repo/src/error_metrics/average_case_error.cpp:87-106`. -/
def averageCaseErrorAddE (A : AddEnv) (dec : ℚ → ℚ) (r : NumRep) (f fHat : List (BDD m)) (s : CTab) :
    Except Fault (ℚ × CTab) := do
  let diff ← absoluteDifferenceAddE A r f fHat s
  let tv ← addTerminalValues diff.1
  let sum := tv.foldl (fun s p => u256 (s + u256 (toU256 p.1 * p.2))) 0
  let pathSum := tv.foldl (fun s p => u256 (s + p.2)) 0
  let q ← fdiv sum pathSum
  .ok (dec q, diff.2)

/-- `mean_squared_error_add`, `/repo/src/error_metrics/average_case_error.cpp:108-128`. -/
def meanSquaredErrorAddE (A : AddEnv) (dec : ℚ → ℚ) (r : NumRep) (f fHat : List (BDD m)) (s : CTab) :
    Except Fault (ℚ × CTab) := do
  let diff ← absoluteDifferenceAddE A r f fHat s
  let tv ← addTerminalValues diff.1
  let sum := tv.foldl (fun s p => u256 (s + u256 (u256 (toU256 p.1 * toU256 p.1) * p.2))) 0
  let pathSum := tv.foldl (fun s p => u256 (s + p.2)) 0
  let q ← fdiv sum pathSum
  .ok (dec q, diff.2)

/-- `error_rate_add`, `/repo/src/error_metrics/error_rate.cpp:143-161`: both counts become `double`s. -/
def errorRateAddE (A : AddEnv) (f fHat : List (BDD m)) (s : CTab) : Except Fault (ℚ × CTab) := do
  let diff ← xorDifferenceAddE A f fHat s
  let tv ← addTerminalValues diff.1
  let nonZero := tv.foldl (fun s p => if p.1 ≠ 0 then u64 (s + p.2) else s) 0
  let total := tv.foldl (fun s p => u64 (s + p.2)) 0
  let q ← fdiv (A.rnd nonZero) (A.rnd total)
  .ok (A.rnd q, diff.2)

/-- Sum of `worst_case_bit_flip_error`, `/repo/src/error_metrics/worst_case_bit_flip_error.cpp:13-17`. -/
def bitErrorSumE (A : AddEnv) : List (BDD m) → List (BDD m) → ADD m → CTab → ADD m × CTab
  | a :: as, b :: bs, acc, s =>
      let r := acc.addE A (.ofBDD (a.xor b)) s
      bitErrorSumE A as bs r.1 r.2
  | _, _, acc, s => (acc, s)

/-- `worst_case_bit_flip_error`, `/repo/src/error_metrics/worst_case_bit_flip_error.cpp:7-20`. -/
def worstCaseBitFlipErrorE (A : AddEnv) (f fHat : List (BDD m)) (s : CTab) : Except Fault (Nat × CTab) :=
  if f.length ≠ fHat.length then .error .assertion
  else do
    let sum := bitErrorSumE A f fHat (.const 0) s
    let v ← constADDValue sum.1.findMax
    .ok (v, sum.2)

/-- `worst_case_bit_flip_error_add`, `/repo/src/error_metrics/worst_case_bit_flip_error.cpp:22-37`. -/
def worstCaseBitFlipErrorAddE (A : AddEnv) (f fHat : List (BDD m)) (s : CTab) : Except Fault (Nat × CTab) := do
  let diff ← xorDifferenceAddE A f fHat s
  let tv ← addTerminalValues diff.1
  let v ← maxFlipLoop tv 0
  .ok (v, diff.2)

/-- `average_bit_flip_error_add`, `/repo/src/error_metrics/average_bit_flip_error.cpp:34-51`. -/
def averageBitFlipErrorAddE (A : AddEnv) (f fHat : List (BDD m)) (s : CTab) : Except Fault (ℚ × CTab) := do
  let diff ← xorDifferenceAddE A f fHat s
  let tv ← addTerminalValues diff.1
  let p ← avgFlipLoop tv 0 0
  let q ← fdiv (A.rnd p.1) (A.rnd p.2)
  .ok (A.rnd q, diff.2)

/-- The ADD of relative errors, `/repo/src/error_metrics/worst_case_relative_error.cpp:17-20` and
`/repo/src/error_metrics/average_case_relative_error.cpp:61-64`. `Maximum` makes no constants. -/
def relativeDiffAddE (A : AddEnv) (r : NumRep) (f fHat : List (BDD m)) (s : CTab) : Except Fault (ADD m × CTab) := do
  let diff ← absoluteDifferenceAddE A r f fHat s
  let fAbs ← bddAbs r f
  let den ← bddForestToAddE A .baseTwo fAbs diff.2
  .ok (diff.1.divE A (den.1.maximum (.const 1)) den.2)

/-- `wcre_add`, `/repo/src/error_metrics/worst_case_relative_error.cpp:12-30`. -/
def wcreAddE (A : AddEnv) (r : NumRep) (f fHat : List (BDD m)) (s : CTab) : Except Fault (ℚ × CTab) := do
  let rd ← relativeDiffAddE A r f fHat s
  let tv ← addTerminalValues rd.1
  .ok (tv.foldl (fun l p => max l p.1) 0, rd.2)

/-- `acre_add`, `/repo/src/error_metrics/average_case_relative_error.cpp:54-78`: the sum is kept to 100 digits, and
so are the terminals and the products. -/
def acreAddE (A : AddEnv) (dec : ℚ → ℚ) (r : NumRep) (f fHat : List (BDD m)) (s : CTab) :
    Except Fault (ℚ × CTab) := do
  let rd ← relativeDiffAddE A r f fHat s
  let tv ← addTerminalValues rd.1
  let sum := tv.foldl (fun s p => dec (s + dec (dec p.1 * p.2))) 0
  let q ← fdiv sum (tv.foldl (fun s p => u256 (s + p.2)) 0 : Nat)
  .ok (dec q, rd.2)

end Verif

import Verif.Model.Parsing
import Verif.Model.Papers
import Verif.Model.Adders
import Verif.Model.Relative
import Verif.Model.FloatMetrics
import Verif.Model.DumpDot

/-!
# `/repo/tests`

A test case is the list of the values of its `REQUIRE`s and `CHECK`s, in the order of the program; it
passes if all are true.  The number of variables of the generic tests is a parameter, so are the
functions and the numbers the checks are run on.  Tests without a check (`Dinge`, `Trivial
worst_case_error`) are left out.
-/

namespace Verif

variable {m : Mgr}

/-! ## The CUDD operations only the tests use -/

/-- The child of a handle with respect to a variable at or above its top, `Cudd_T`, `Cudd_E`. -/
def BDD.child (v : Nat) (b : Bool) (f : BDD m) : BDD m := ⟨f.edge.cof v b, Edge.cof_wf f.wf v b⟩

/-- `Cudd_bddConstrain` (`BDD::Constrain`, `/repo/tests/error_metrics_test.cpp:37`,
`/repo/tests/operations_test.cpp:69-109`, `180-203`) with a recursion bound that is not reached. -/
def constrainF : Nat → BDD m → BDD m → BDD m
  | 0, f, _ => f
  | k + 1, f, c =>
    if c.isOne then f
    else if c.isZero then .zero
    else if f.edge.isConst then f
    else if f = c then .one
    else if f = c.not then .zero
    else match Edge.top2 m f.edge c.edge with
      | none => f
      | some v =>
        if (c.child v true).isZero then constrainF k (f.child v false) (c.child v false)
        else if (c.child v false).isZero then constrainF k (f.child v true) (c.child v true)
        else BDD.ite (.var v) (constrainF k (f.child v true) (c.child v true))
          (constrainF k (f.child v false) (c.child v false))

/-- `BDD::Constrain`. -/
def constrain (f c : BDD m) : BDD m := constrainF (f.edge.n.size + c.edge.n.size) f c

/-- `Cudd_Cofactor` (`BDD::Cofactor`, `/repo/tests/operations_test.cpp:123-147`, `180-203`) with a
recursion bound that is not reached.  An operand that is not a cube is an error, which cuddObj turns
into an exception. -/
def cofactorCubeF : Nat → BDD m → BDD m → Except Fault (BDD m)
  | 0, f, _ => .ok f
  | k + 1, f, c =>
    if f.edge.isConst || c.isOne then .ok f
    else match Edge.top2 m f.edge c.edge with
      | none => .ok f
      | some v =>
        if c.child v true = c then do
          let t ← cofactorCubeF k (f.child v true) c
          let e ← cofactorCubeF k (f.child v false) c
          .ok (BDD.ite (.var v) t e)
        else if (c.child v false).isZero then cofactorCubeF k (f.child v true) (c.child v true)
        else if (c.child v true).isZero then cofactorCubeF k (f.child v false) (c.child v false)
        else .error .logicError

/-- `BDD::Cofactor`; the constant 0 is refused before the recursion. -/
def cofactorCube (f c : BDD m) : Except Fault (BDD m) :=
  if c.isZero then .error .logicError else cofactorCubeF (f.edge.n.size + c.edge.n.size) f c

/-- `Cudd_CheckCube` (`BDD::IsCube`, `/repo/tests/operations_test.cpp:126-146`). -/
def isCubeN : DD → Bool → Bool
  | .one, neg => !neg
  | .node _ t c e, neg =>
    if (⟨neg ^^ c, e⟩ : Edge) = Edge.zero then isCubeN t neg
    else if (⟨neg, t⟩ : Edge) = Edge.zero then isCubeN e (neg ^^ c)
    else false

/-- `BDD::IsCube`. -/
def BDD.isCube (f : BDD m) : Bool := isCubeN f.edge.n f.edge.neg

/-! ## `error_metrics_test.cpp` -/

/-- `REQUIRE(q == error_rate(mgr, f, g))`, e.g. `/repo/tests/error_metrics_test.cpp:45`; the error rate
is computed with doubles. -/
def requireRate (rnd : ℚ → ℚ) (f g : BDD m) (q : ℚ) : Except Fault Bool := do
  let e ← errorRateF rnd [f] [g]
  .ok (decide (q = e))

/-- "Trivial Error Rate Test", `/repo/tests/error_metrics_test.cpp:20-56`. -/
def testTrivialErrorRate (rnd : ℚ → ℚ) : Except Fault (List Bool) := do
  let x : BDD m := .var 0
  let y : BDD m := .var 1
  let z : BDD m := .var 2
  let andBdd := (x.and y).and z
  let approx := constrain andBdd y
  let c1 ← requireRate rnd andBdd approx (1 / 8)
  let approx := constrain approx x
  let c2 ← requireRate rnd andBdd approx (3 / 8)
  let approx := constrain approx z
  let c3 ← requireRate rnd andBdd approx (7 / 8)
  .ok [c1, c2, c3]

/-- "Example 3 from ASP-DAC 2016 paper", `/repo/tests/error_metrics_test.cpp:62-76`. -/
def testExample3 : List Bool := [decide (13 = getMaxValue (example3 : List (BDD m)))]

/-- `double((1L << (i+1)) - 1) / double(1L << n)`, `/repo/tests/error_metrics_test.cpp:114`; shifting by
63 or more is undefined. -/
def expectedError (rnd : ℚ → ℚ) (i n : Nat) : Except Fault ℚ :=
  if n < 63 ∧ i + 1 < 63 then .ok (rnd (rnd ((2 ^ (i + 1) : ℚ) - 1) / rnd (2 ^ n))) else .error .ub

/-- Loop of "Generic OR constraint error rate test", `/repo/tests/error_metrics_test.cpp:110-122`, the
iterations `i` to `i + k - 1`. -/
def orTestLoop (rnd : ℚ → ℚ) (n : Nat) (orB : BDD m) : Nat → Nat → BDD m → BDD m → Except Fault (List Bool)
  | 0, _, _, _ => .ok []
  | k + 1, i, pos, neg => do
    let pos := constrain pos (.var i)
    let neg := constrain neg (BDD.var i).not
    let expected ← expectedError rnd i n
    let c1 ← requireRate rnd orB neg expected
    let c2 ← requireRate rnd orB pos (rnd (1 / rnd (2 ^ n)))
    let r ← orTestLoop rnd n orB k (i + 1) pos neg
    .ok (c1 :: c2 :: r)

/-- "Generic OR constraint error rate test", `/repo/tests/error_metrics_test.cpp:89-125`, `n` is 30
there. -/
def testOr (m : Mgr) (rnd : ℚ → ℚ) (n : Nat) : Except Fault (List Bool) := do
  let orB : BDD m := (List.range n).foldl (fun b i => b.or (.var i)) (orBdd n)
  let c1 ← requireRate rnd orB orB 0
  let c2 ← requireRate rnd orB orB 0
  let r ← orTestLoop rnd n orB n 0 orB orB
  .ok (c1 :: c2 :: r)

/-- Loop of "Generic AND constraint error rate test", `/repo/tests/error_metrics_test.cpp:145-158`. -/
def andTestLoop (rnd : ℚ → ℚ) (n : Nat) (andB : BDD m) : Nat → Nat → BDD m → Except Fault (List Bool)
  | 0, _, _ => .ok []
  | k + 1, i, pos => do
    let pos := constrain pos (.var i)
    let neg := constrain pos (BDD.var i).not
    let expected ← expectedError rnd i n
    let c1 ← requireRate rnd andB pos expected
    let c2 ← requireRate rnd andB neg expected
    let r ← andTestLoop rnd n andB k (i + 1) pos
    .ok (c1 :: c2 :: r)

/-- "Generic AND constraint error rate test", `/repo/tests/error_metrics_test.cpp:129-161`, `n` is 20
there. -/
def testAnd (m : Mgr) (rnd : ℚ → ℚ) (n : Nat) : Except Fault (List Bool) := do
  let andB : BDD m := andBdd n
  let c1 ← requireRate rnd andB andB 0
  let c2 ← requireRate rnd andB andB 0
  let r ← andTestLoop rnd n andB n 0 andB
  .ok (c1 :: c2 :: r)

/-- "Trivial average case error", `/repo/tests/error_metrics_test.cpp:164-173`. -/
def testAverage (m : Mgr) (rnd dec : ℚ → ℚ) : Except Fault (List Bool) := do
  let a ← averageCaseErrorF rnd dec .baseTwo [(BDD.one : BDD m), .one] [.zero, .zero]
  .ok [decide (a = 3)]

/-- `check_wcr_values`, `/repo/tests/error_metrics_test.cpp:175-196`.  The padded copies `f_` and `g_`
are not used, and the last check is `wcre_symbolic_division` a second time.  Default arguments: 16 extra
bits, precision 0.0001, one sample. -/
def checkWcrValues (f g : List (BDD m)) (desired readSize : Nat) (rs : Nat → Nat → Nat → Nat)
    (fuel : Nat) : Except Fault (List Bool) := do
  let binSearch ← wcreSearch .baseTwo f g 16 (1 / 10000) fuel
  let ranSearch ← wcreRandomizedSearch .baseTwo f g readSize 1 rs fuel
  let symbolic ← wcreSymbolicDivision .baseTwo f g 16
  let add ← wcreSymbolicDivision .baseTwo f g 16
  .ok [decide ((desired : ℚ) = binSearch), decide (desired * ranSearch.2 = ranSearch.1),
    decide ((desired : ℚ) = symbolic), decide ((desired : ℚ) = add)]

/-- "Simple worst case relative error metrics", `/repo/tests/error_metrics_test.cpp:198-212`; `rs k` are
the random numbers of the `k`-th comparison. -/
def testWcr (m : Mgr) (rs : Nat → Nat → Nat → Nat → Nat) (fuel : Nat) : Except Fault (List Bool) := do
  let run (k a b desired : Nat) : Except Fault (List Bool) :=
    checkWcrValues (numberToBdds a : List (BDD m)) (numberToBdds b) desired 256 (rs k) fuel
  let c0 ← run 0 1 1 0
  let c1 ← run 1 1 2 1
  let c2 ← run 2 1 6 5
  let c3 ← run 3 1 22 21
  let c4 ← run 4 1 1232346 1232345
  let c5 ← run 5 0 1 1
  let c6 ← run 6 3 18 5
  .ok (c0 ++ c1 ++ c2 ++ c3 ++ c4 ++ c5 ++ c6)

/-! ## `operations_test.cpp` -/

/-- `std::string::find`, `/repo/tests/operations_test.cpp:28`; none is `npos`. -/
def findSub (pat : List Char) : List Char → Option Nat
  | [] => if pat = [] then some 0 else none
  | c :: cs => if pat.isPrefixOf (c :: cs) then some 0 else (findSub pat cs).map (· + 1)

/-- The predicate of the test, `/repo/tests/operations_test.cpp:26-29`: the position found, converted to
`bool`; `npos` is not 0. -/
def messagePred (msg : List Char) : Bool :=
  match findSub "Cannot retrieve child of a terminal node".toList msg with
  | some p => decide (p ≠ 0)
  | none => true

/-- The texts of the exceptions, `/repo/src/util/cudd_helpers.cpp:445`, `464`. -/
def highMessage : List Char := "high(mgr,v): Cannot retrieve child of a terminal node".toList
def lowMessage : List Char := "low(mgr,v): Cannot retrieve child of a terminal node".toList

/-- `CHECK_THROWS_MATCHES(…, std::invalid_argument, pred)`, `/repo/tests/operations_test.cpp:33-34`. -/
def throwsMatching (r : Except Fault (BDD m)) (msg : List Char) : Bool :=
  match r with
  | .error .invalidArgument => messagePred msg
  | _ => false

/-- "Test child operators", `/repo/tests/operations_test.cpp:8-41`. -/
def testChildren : Except Fault (List Bool) := do
  let f : List (BDD .id) := example3
  let f0 ← vget f 0
  let f4 ← vget f 4
  let lf0 ← low f0
  let hf0 ← high f0
  .ok [decide (BDD.zero = hf0), decide ((BDD.var 1).not = lf0), throwsMatching (low f4) lowMessage,
    throwsMatching (high f4) highMessage]

/-- "Cofactor works as expected", `/repo/tests/operations_test.cpp:111-152`. -/
def testCofactor (m : Mgr) : Except Fault (List Bool) := do
  let x : BDD m := .var 0
  let y : BDD m := .var 1
  let orB := x.or y
  let andB := x.and y
  let m1 ← cofactorCube orB x
  let m2 ← cofactorCube andB x
  let m3 ← cofactorCube orB x.not
  let m4 ← cofactorCube andB x.not
  .ok [m1.isOne, !m1.isZero, m1.isCube, !m2.isOne, !m2.isZero, !m3.isOne, !m3.isZero, !m4.isOne,
    m4.isZero, !m4.isCube]

/-- `CHECK(f.Constrain(c) == f.Cofactor(c))`, `/repo/tests/operations_test.cpp:180-186`. -/
def checkConstrain (f c : BDD m) : Except Fault Bool := do
  let b ← cofactorCube f c
  .ok (decide (constrain f c = b))

/-- The cubes, `/repo/tests/operations_test.cpp:173-179`. -/
def posCube (j : Nat) : BDD m := (List.range (j + 1)).foldl (fun c k => c.and (.var k)) .one
def negCube (j : Nat) : BDD m := (List.range (j + 1)).foldl (fun c k => c.and (BDD.var k).not) .one

/-- The function the test calls `xor_bdd`, `/repo/tests/operations_test.cpp:160-169`. -/
def testXorFunction (n : Nat) : BDD m := (List.range n).foldl (fun b i => b.and (.var i)) .zero

/-- One iteration of the inner loop, `/repo/tests/operations_test.cpp:176-204`. -/
def constrainBody (orB andB xorB : BDD m) (j : Nat) : Except Fault (List Bool) := do
  let c1 ← checkConstrain orB (posCube j)
  let c2 ← checkConstrain orB (negCube j)
  let c3 ← checkConstrain andB (posCube j)
  let c4 ← checkConstrain andB (negCube j)
  let c5 ← checkConstrain xorB (posCube j)
  let c6 ← checkConstrain xorB (negCube j)
  .ok [c1, c2, c3, c4, c5, c6]

/-- "Difference in Cofactor and Constrain(?)", `/repo/tests/operations_test.cpp:154-208`, `n` is 30
there; one list for each iteration of the inner loop. -/
def testConstrain (m : Mgr) (n : Nat) : Except Fault (List (List Bool)) := do
  let orB : BDD m := (List.range n).foldl (fun b i => b.or (.var i)) .zero
  let andB : BDD m := (List.range n).foldl (fun b i => b.and (.var i)) .one
  ((List.range n).flatMap (fun i => List.range (i + 1))).mapM (constrainBody orB andB (testXorFunction n))

/-- "Dinge", `/repo/tests/operations_test.cpp:43-109`: the twelve functions; nothing is checked. -/
def testDinge (m : Mgr) : List (BDD m) :=
  let x : BDD m := .var 0
  let y : BDD m := .var 1
  let z : BDD m := .var 2
  let funs := [(x.and y).and z, (x.or y).or z, (x.xor y).xor z]
  funs ++ funs.map (constrain · x) ++ funs.map (constrain · y) ++ funs.map (constrain · y.not)

/-- The functions of "Trivial worst_case_error", `/repo/tests/error_metrics_test.cpp:77-86`, whose check is commented
out. -/
def testTrivialWorstCase (m : Mgr) : List (BDD m) × List (BDD m) := ([.zero, .zero], [.one, .one])

/-! ## `approximation_operations_test.cpp` -/

/-- "Example 3 from ASP-DAC 2016 paper", `/repo/tests/approximation_operations_test.cpp:22-45`. -/
def testRounding (m : Mgr) : Except Fault (List Bool) := do
  let fun_ : List (BDD m) := example1a
  let down ← fun_.mapM (roundDown · 2 4)
  let up ← fun_.mapM (roundUp · 2 4)
  let rounded ← fun_.mapM (roundBdd · 2)
  .ok [decide (example1b = down), decide (example1c = up), decide (example1d = rounded)]

/-! ## `function_test.cpp` -/

/-- "operator []", `/repo/tests/function_test.cpp:7-22`, for any functions. -/
def testIndex (asserts : Bool) (f1 f2 f3 : BDD m) : Except Fault (List Bool) := do
  let function ← AboFunction.new asserts [f1, f2] .baseTwo
  let a ← function.at_ 0
  let b ← function.at_ 1
  let function ← function.assign 0 f3
  let c ← function.at_ 0
  let d ← function.at_ 1
  .ok [decide (a = f1), decide (b = f2), decide (c = f3), decide (d = f2)]

/-- "operator &" and "operator |", `/repo/tests/function_test.cpp:24-46`, for any functions. -/
def testBinary (asserts : Bool) (f1 f2 f3 : BDD m) : Except Fault (List Bool) := do
  let function ← AboFunction.new asserts [f1, f2] .baseTwo
  let a0 ← (function.and f3).2.at_ 0
  let a1 ← (function.and f3).2.at_ 1
  let o0 ← (function.or f3).2.at_ 0
  let o1 ← (function.or f3).2.at_ 1
  .ok [decide (a0 = f1.and f3), decide (a1 = f2.and f3), decide (o0 = f1.or f3), decide (o1 = f2.or f3)]

/-- "operator &=" and "operator |=", `/repo/tests/function_test.cpp:48-70`. -/
def testAssign (asserts : Bool) (f1 f2 f3 : BDD m) : Except Fault (List Bool) := do
  let function ← AboFunction.new asserts [f1, f2] .baseTwo
  let a0 ← (function.andAssign f3).at_ 0
  let a1 ← (function.andAssign f3).at_ 1
  let o0 ← (function.orAssign f3).at_ 0
  let o1 ← (function.orAssign f3).at_ 1
  .ok [decide (a0 = f1.and f3), decide (a1 = f2.and f3), decide (o0 = f1.or f3), decide (o1 = f2.or f3)]

/-- "num bits" and "is signed", `/repo/tests/function_test.cpp:72-88`. -/
def testBits (asserts : Bool) (f : BDD m) : Except Fault (List Bool) := do
  let f4 ← AboFunction.new asserts [f, f, f, f] .baseTwo
  let f2 ← AboFunction.new asserts [f, f] .baseTwo
  let g2 ← AboFunction.new asserts [f, f] .twosComplement
  .ok [decide (f4.numBits = 4), !f2.isSigned, g2.isSigned]

/-! ## `parsing_test.cpp` -/

/-- The callbacks for `/repo/tests/or.pla`. -/
def orPla : List PlaEvent :=
  [.inputs 2, .outputs 1, .terms 3, .keyword "ilb".toList "a b".toList, .keyword "ob".toList "f".toList,
    .term "01".toList "1".toList, .term "10".toList "1".toList, .term "11".toList "1".toList]

/-- The callbacks for `/repo/tests/funs.pla`. -/
def funsPla : List PlaEvent :=
  [.keyword "ilb".toList "x y".toList, .keyword "ob".toList "or and id_y".toList, .inputs 2, .outputs 3,
    .term "01".toList "101".toList, .term "10".toList "100".toList, .term "11".toList "111".toList]

/-- The callbacks for `/repo/tests/dc.pla`. -/
def dcPla : List PlaEvent :=
  [.keyword "ilb".toList "x y".toList, .keyword "ob".toList "f".toList, .inputs 2, .outputs 1,
    .term "00".toList "1".toList, .term "01".toList "0".toList, .term "1-".toList "1".toList]

/-- `Cudd_ReadSize` after the parser has asked for its variables in a manager with `n` variables,
`/repo/tests/parsing_test.cpp:47`. -/
def readSizeAfter (n : Nat) (vars : List (BDD m)) : Nat := max n vars.length

/-- "parse or.pla file", `/repo/tests/parsing_test.cpp:14-54`. -/
def testOrPla (m : Mgr) : Except Fault (List Bool) := do
  let s ← plaRun orPla (plaNew ([] : List (BDD m)) [] [])
  let i0 ← vget s.inNames 0
  let i1 ← vget s.inNames 1
  let n0 ← vget s.mgrNames 0
  let n1 ← vget s.mgrNames 1
  let o0 ← vget s.outNames 0
  let out0 ← vget s.outputs 0
  .ok [decide (s.inNames.length = 2), decide (s.outNames.length = 1), decide (s.outputs.length = 1),
    decide (i0 = "a".toList), decide (i1 = "b".toList), decide (n0 = "a".toList), decide (n1 = "b".toList),
    decide (o0 = "f".toList), decide (nodeCount [out0] = 3), decide (nodeCount s.outputs = 3),
    decide (readSizeAfter 2 s.bddVars = 2), decide (out0.supportSize = 2)]

/-- "parse funs.pla and perform basic operations", `/repo/tests/parsing_test.cpp:56-95`. -/
def testFunsPla (m : Mgr) : Except Fault (List Bool) := do
  let s ← plaRun funsPla (plaNew ([] : List (BDD m)) [] [])
  let i0 ← vget s.inNames 0
  let i1 ← vget s.inNames 1
  let n0 ← vget s.mgrNames 0
  let n1 ← vget s.mgrNames 1
  let o0 ← vget s.outNames 0
  let o1 ← vget s.outNames 1
  let o2 ← vget s.outNames 2
  let out0 ← vget s.outputs 0
  let out1 ← vget s.outputs 1
  let out2 ← vget s.outputs 2
  .ok [decide (s.inNames.length = 2), decide (s.outNames.length = 3), decide (s.outputs.length = 3),
    decide (i0 = "x".toList), decide (i1 = "y".toList), decide (n0 = "x".toList), decide (n1 = "y".toList),
    decide (o0 = "or".toList), decide (o1 = "and".toList), decide (o2 = "id_y".toList),
    decide (nodeCount [out0] = 3), decide (nodeCount [out1] = 3), decide (nodeCount [out2] = 2),
    decide (nodeCount s.outputs = 4), decide (readSizeAfter 2 s.bddVars = 2),
    decide (out0.supportSize = 2), decide (out1.supportSize = 2), decide (out2.supportSize = 1)]

/-- "check handling of overlapping cubes in pla specification", `/repo/tests/parsing_test.cpp:97-120`. -/
def testDcPla (m : Mgr) : Except Fault (List Bool) := do
  let s ← plaRun dcPla (plaNew ([] : List (BDD m)) [] [])
  let out0 ← vget s.outputs 0
  let v0 ← out0.evalIn [0, 0]
  let v1 ← out0.evalIn [0, 1]
  let v2 ← out0.evalIn [1, 0]
  let v3 ← out0.evalIn [1, 1]
  .ok [v0 = true, v1 = false, v2 = true, v3 = true]

/-! ## `dump_dot_test.cpp` -/

/-- "Display BDD in a fancy way", `/repo/tests/dump_dot_test.cpp:11-34`: the three texts; nothing is
checked. -/
def testDumpDot (m : Mgr) (asserts : Bool) :
    Except Fault (List DotStmt × List DotStmt × List DotStmt) := do
  let names := ["and".toList, "xor with spaces".toList]
  let andB : BDD m := andBdd 2
  let xorB : BDD m := xorBdd 12
  let s1 ← dumpDot asserts [andB, xorB] names [] true none
  let s2 ← dumpDot asserts [andB, xorB] [] [] true none
  let s3 ← dumpDotOne asserts andB [] [] none
  .ok (s1, s2, s3)

end Verif

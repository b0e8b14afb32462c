import Verif.DD.BDD

/-!
# `/repo/src/example_bdds/from_papers.cpp`: the example functions of two papers

The switched-off `pushVariableName` calls (lines 20-25, 56-61, 88-93, 109-114, 129-132) and those of
`running_example` (lines 156-160) only name variables and are left out.
-/

namespace Verif

variable {m : Mgr}

/-- `a * b * …`, the conjunction of the factors from left to right. -/
def cube (b : BDD m) (bs : List (BDD m)) : BDD m := bs.foldl BDD.and b

/-- `a | b | …`, the disjunction of the terms from left to right. -/
def cubes (b : BDD m) (bs : List (BDD m)) : BDD m := bs.foldl BDD.or b

/-- `example1a`, `/repo/src/example_bdds/from_papers.cpp:13-47`. -/
def example1a : List (BDD m) :=
  let x1 : BDD m := .var 0
  let x2 : BDD m := .var 1
  let x3 : BDD m := .var 2
  let x4 : BDD m := .var 3
  let cube01 := cube x1.not [x2]
  let cube02 := cube x1 [x2.not]
  let cube11 := cube x1.not [x3, x4.not]
  let cube12 := cube x1.not [x3.not, x4]
  let cube13 := cube x1 [x2.not, x3, x4.not]
  let cube14 := cube x1 [x2.not, x3.not, x4]
  let cube15 := cube x1 [x2, x3, x4]
  let cube16 := cube x1 [x2, x3.not, x4.not]
  let cube21 := cube x1 [x2, x3]
  let cube22 := cube x1 [x2, x3.not, x4]
  let cube23 := cube x1 [x2.not, x3, x4]
  let cube24 := cube x1.not [x3, x4]
  let f0 := cubes cube01 [cube02]
  let f1 := cubes cube11 [cube12, cube13, cube14, cube15, cube16]
  let f2 := cubes cube21 [cube22, cube23, cube24]
  [f0, f1, f2]

/-- `example1b`, `/repo/src/example_bdds/from_papers.cpp:49-79`. -/
def example1b : List (BDD m) :=
  let x1 : BDD m := .var 0
  let x2 : BDD m := .var 1
  let x3 : BDD m := .var 2
  let x4 : BDD m := .var 3
  let cube01 := cube x1.not [x2]
  let cube02 := cube x1 [x2.not]
  let cube11 := cube x1 [x2, x3.not, x4.not]
  let cube12 := cube x1.not [x3.not, x4]
  let cube13 := cube x1 [x2.not, x3.not, x4]
  let cube21 := cube x1 [x2, x3.not, x4]
  let cube22 := cube x1 [x2.not, x3, x4]
  let cube23 := cube x1.not [x3, x4]
  let f0 := cubes cube01 [cube02]
  let f1 := cubes cube11 [cube12, cube13]
  let f2 := cubes cube21 [cube22, cube23]
  [f0, f1, f2]

/-- `example1c`, `/repo/src/example_bdds/from_papers.cpp:81-100`. -/
def example1c : List (BDD m) :=
  let x1 : BDD m := .var 0
  let x2 : BDD m := .var 1
  let f0 := cubes (cube x1 [x2.not]) [cube x1.not [x2]]
  [f0, .one, .one]

/-- `example1d`, `/repo/src/example_bdds/from_papers.cpp:102-121`. -/
def example1d : List (BDD m) :=
  let x1 : BDD m := .var 0
  let x2 : BDD m := .var 1
  let f0 := cubes (cube x1 [x2.not]) [cube x1.not [x2]]
  [f0, .zero, cube x1 [x2]]

/-- `example3`, `/repo/src/example_bdds/from_papers.cpp:123-146`. -/
def example3 : List (BDD m) :=
  let x1 : BDD m := .var 0
  let x2 : BDD m := .var 1
  let cube1 := cube x2.not [x1.not]
  let cube2 := cube x2.not [x1]
  let cube3 := cube x2 [x1.not]
  let cube4 := cube x2 [x1]
  [cube3, cubes cube1 [cube2], cubes cube2 [cube3, cube4], cubes cube1 [cube3, cube4], .zero]

/-- `running_example`, `/repo/src/example_bdds/from_papers.cpp:149-175`. -/
def runningExample : List (BDD m) :=
  let x1 : BDD m := .var 2
  let x2 : BDD m := .var 1
  let x3 : BDD m := .var 0
  let cube1 := cube x3.not [x2.not, x1.not]
  let cube2 := cube x3.not [x2.not, x1]
  let cube3 := cube x3.not [x2, x1.not]
  let cube4 := cube x3.not [x2, x1]
  let cube5 := cube x3 [x2.not, x1.not]
  let cube6 := cube x3 [x2.not, x1]
  let cube7 := cube x3 [x2, x1.not]
  let cube8 := cube x3 [x2, x1]
  [cubes cube1 [cube2, cube3, cube5, cube8], cubes cube4 [cube5, cube6, cube7]]

end Verif

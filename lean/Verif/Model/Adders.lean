import Verif.Model.CuddHelpers

/-!
# `src/example_bdds/approximate_adders.cpp`

Parameters are `unsigned int`, that is naturals below `2^32`; differences of parameters wrap
(`u32sub`), and loops counting an `int` down start from the converted value (`downFrom`).
Simplification: `num_bits` is small enough (below `2^31`) for `static_cast<int>(num_bits)`,
`i * 2 + 1` and `i + 1` to be exact; these are not wrapped.  `asserts` says whether the build has
`assert` enabled (no `NDEBUG`).
-/

namespace Verif

variable {m : Mgr}

/-- `a - b` for `unsigned int`. -/
def u32sub (a b : Nat) : Nat := (a + 2 ^ 32 - b) % 2 ^ 32

/-- Number of iterations of `for (int j = x; j >= 0; j--)` for an unsigned `x`: a value from `2^31` on
becomes negative. -/
def downFrom (x : Nat) : Nat := if x < 2 ^ 31 then x + 1 else 0

/-- `carry_generate`, `/repo/src/example_bdds/approximate_adders.cpp:7-10`. -/
def carryGenerate (a b c : BDD m) : BDD m := ((a.and b).or (a.and c)).or (b.and c)

/-- `input1`, `/repo/src/example_bdds/approximate_adders.cpp:17-26` (the same in all adders). -/
def input1 (n : Nat) : List (BDD m) := (List.range n).map (fun i => BDD.var (i * 2))
/-- `input2`, `/repo/src/example_bdds/approximate_adders.cpp:17-26`. -/
def input2 (n : Nat) : List (BDD m) := (List.range n).map (fun i => BDD.var (i * 2 + 1))

/-- The exact carries at the start, `/repo/src/example_bdds/approximate_adders.cpp:30-42` and
`238-250`; first argument: iterations left. -/
def prefixLoop (in1 in2 : List (BDD m)) : Nat → Nat → List (BDD m) → Except Fault (List (BDD m))
  | 0, _, cs => .ok cs
  | k + 1, i, cs => do
      let a ← vget in1 i
      let b ← vget in2 i
      let c ← if i = 0 then .ok .zero else vback cs
      prefixLoop in1 in2 k (i + 1) (cs ++ [carryGenerate a b c])

/-- The carry over a window of bits, `/repo/src/example_bdds/approximate_adders.cpp:47-55`,
`113-120`, `180-187`; iterations left `j + 1` stands for the loop variable `j`. -/
def windowLoop (in1 in2 : List (BDD m)) (i : Nat) : Nat → BDD m → Except Fault (BDD m)
  | 0, t => .ok t
  | j + 1, t =>
      if j ≤ i then do
        let a ← vget in1 (i - j)
        let b ← vget in2 (i - j)
        windowLoop in1 in2 i j (carryGenerate a b t)
      else windowLoop in1 in2 i j t

/-- Main loop of `almost_correct_adder_1`, `/repo/src/example_bdds/approximate_adders.cpp:44-57`. -/
def aca1Loop (in1 in2 : List (BDD m)) (w : Nat) : Nat → Nat → List (BDD m) →
    Except Fault (List (BDD m))
  | 0, _, cs => .ok cs
  | k + 1, i, cs => do
      let t ← windowLoop in1 in2 i w .zero
      aca1Loop in1 in2 w k (i + 1) (cs ++ [t])

/-- The sum bits, `/repo/src/example_bdds/approximate_adders.cpp:61-73`, `131-143`, `198-210`,
`279-291`. -/
def sumLoop (in1 in2 cs : List (BDD m)) : Nat → Nat → Except Fault (List (BDD m))
  | 0, _ => .ok []
  | k + 1, i => do
      let a ← vget in1 i
      let b ← vget in2 i
      let c ← if i = 0 then .ok .zero else vget cs (i - 1)
      let rest ← sumLoop in1 in2 cs k (i + 1)
      .ok (a.xor (b.xor c) :: rest)

/-- Sum bits and the final carry, `/repo/src/example_bdds/approximate_adders.cpp:59-78`, `129-148`,
`196-215`, `277-296`. -/
def finishAdder (n : Nat) (cs : List (BDD m)) : Except Fault (List (BDD m)) := do
  let sum ← sumLoop (input1 n) (input2 n) cs n 0
  let last ← vback cs
  .ok (sum ++ [last])

/-- `almost_correct_adder_1`, `/repo/src/example_bdds/approximate_adders.cpp:12-79`. -/
def almostCorrectAdder1 (asserts : Bool) (n p : Nat) : Except Fault (List (BDD m)) :=
  if asserts ∧ ¬ (n ≥ p ∧ p > 0) then .error .assertion
  else do
    let cs ← prefixLoop (input1 n) (input2 n) (u32sub p 1) 0 []
    let cs ← aca1Loop (input1 n) (input2 n) (downFrom (u32sub p 2)) (n - u32sub p 1) (u32sub p 1) cs
    finishAdder n cs

/-- The carry loop of `almost_correct_adder_2` and `gracefully_degrading_adder`,
`/repo/src/example_bdds/approximate_adders.cpp:100-127`, `167-194`, for `parts` partitions and `w`
iterations of the window loop.  `num_bits / num_partitions` and the modulo are evaluated from `i = 1`
on. -/
def blockLoop (n parts w : Nat) (in1 in2 : List (BDD m)) : Nat → Nat → List (BDD m) →
    Except Fault (List (BDD m))
  | 0, _, cs => .ok cs
  | k + 1, i, cs => do
      let a ← vget in1 i
      let b ← vget in2 i
      if i = 0 then blockLoop n parts w in1 in2 k (i + 1) (cs ++ [carryGenerate a b .zero])
      else if parts = 0 then .error .ub
      else if n / parts = 0 then .error .ub
      else if (i + 1) % (n / parts) = 0 ∧ i + 1 ≠ n then do
        let t ← windowLoop in1 in2 i w .zero
        blockLoop n parts w in1 in2 k (i + 1) (cs ++ [t])
      else do
        let c ← vback cs
        blockLoop n parts w in1 in2 k (i + 1) (cs ++ [carryGenerate a b c])

/-- `almost_correct_adder_2`, `/repo/src/example_bdds/approximate_adders.cpp:81-149`. -/
def almostCorrectAdder2 (asserts : Bool) (n p : Nat) : Except Fault (List (BDD m)) :=
  if asserts ∧ ¬ (n ≥ p ∧ p > 0) then .error .assertion
  else if p = 0 then .error .ub
  else do
    let cs ← blockLoop n (n / p + 1) (downFrom (u32sub (p / 2) 1)) (input1 n) (input2 n) n 0 []
    finishAdder n cs

/-- `gracefully_degrading_adder`, `/repo/src/example_bdds/approximate_adders.cpp:151-216`. -/
def gracefullyDegradingAdder (n parts q : Nat) : Except Fault (List (BDD m)) := do
  let cs ← blockLoop n parts (downFrom (u32sub q 1)) (input1 n) (input2 n) n 0 []
  finishAdder n cs

/-- The window loop of `generic_accuracy_reconfigurable_adder`,
`/repo/src/example_bdds/approximate_adders.cpp:262-266`; without a guard, `i - j` wraps. -/
def gearWindow (in1 in2 : List (BDD m)) (i : Nat) : Nat → BDD m → Except Fault (BDD m)
  | 0, t => .ok t
  | j + 1, t => do
      let a ← vget in1 (u32sub i j)
      let b ← vget in2 (u32sub i j)
      gearWindow in1 in2 i j (carryGenerate a b t)

/-- Main loop of `generic_accuracy_reconfigurable_adder`,
`/repo/src/example_bdds/approximate_adders.cpp:256-275`.  `count` does not overflow for fewer than
`2^32` bits. -/
def gearLoop (n res w : Nat) (in1 in2 : List (BDD m)) : Nat → Nat → Nat → List (BDD m) →
    Except Fault (List (BDD m))
  | 0, _, _, cs => .ok cs
  | k + 1, i, count, cs =>
      if count = res ∧ i ≠ n - 1 then do
        let t ← gearWindow in1 in2 i w .zero
        gearLoop n res w in1 in2 k (i + 1) (0 + 1) (cs ++ [t])
      else do
        let a ← vget in1 i
        let b ← vget in2 i
        let c ← vback cs
        gearLoop n res w in1 in2 k (i + 1) (count + 1) (cs ++ [carryGenerate a b c])

/-- `generic_accuracy_reconfigurable_adder`,
`/repo/src/example_bdds/approximate_adders.cpp:218-297`. -/
def genericAccuracyReconfigurableAdder (n res prev : Nat) : Except Fault (List (BDD m)) := do
  let len := (res + prev) % 2 ^ 32
  let cs ← prefixLoop (input1 n) (input2 n) (u32sub len 1) 0 []
  let cs ← gearLoop n res (downFrom (u32sub prev 1)) (input1 n) (input2 n) (n - u32sub len 1)
    (u32sub len 1) res cs
  finishAdder n cs

/-- Loop of `regular_adder`, `/repo/src/example_bdds/approximate_adders.cpp:315-322`. -/
def regularLoop (in1 in2 : List (BDD m)) : Nat → Nat → BDD m → Except Fault (List (BDD m))
  | 0, _, c => .ok [c]
  | k + 1, i, c => do
      let a ← vget in1 i
      let b ← vget in2 i
      let rest ← regularLoop in1 in2 k (i + 1) (fullAdder a b c).2
      .ok ((fullAdder a b c).1 :: rest)

/-- `regular_adder`, `/repo/src/example_bdds/approximate_adders.cpp:299-324`. -/
def regularAdder (n : Nat) : Except Fault (List (BDD m)) := regularLoop (input1 n) (input2 n) n 0 .zero

/-- `and_bdd`, `/repo/src/example_bdds/simple.cpp:8-18`. -/
def andBdd (n : Nat) : BDD m := (List.range n).foldl (fun acc i => acc.and (.var i)) .one
/-- `or_bdd`, `/repo/src/example_bdds/simple.cpp:20-30`. -/
def orBdd (n : Nat) : BDD m := (List.range n).foldl (fun acc i => acc.or (.var i)) .zero
/-- `xor_bdd`, `/repo/src/example_bdds/simple.cpp:32-42`. -/
def xorBdd (n : Nat) : BDD m := (List.range n).foldl (fun acc i => acc.xor (.var i)) .zero

end Verif

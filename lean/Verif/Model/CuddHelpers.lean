import Verif.Spec
import Mathlib.Data.Nat.Log

/-!
# `src/util/cudd_helpers.cpp`: arithmetic on vectors of BDDs

`std::vector<BDD>` is `List (BDD m)` (index 0 first).  Index loops are written as
recursion over the list they index; a loop that indexes a second vector meets
`Fault.ub` when that vector is too short.
-/

namespace Verif

variable {m : Mgr}

/-- `terminal_level`, `/repo/src/util/cudd_helpers.cpp:21-36`.  `max_element` of an empty support
contributes 0, then 1 is added. -/
def terminalLevel (bdds : List (List (BDD m))) : Nat :=
  bdds.foldl (fun acc f => f.foldl (fun acc b => max acc (b.supportIndices.foldl max 0 + 1)) acc) 0

/-- `eval`, `/repo/src/util/cudd_helpers.cpp:60-72`.  Bits are or-ed into a `long`:
`1L << i` is undefined from `i = 64` on; at 63 it is the sign bit (implementation defined in C++17),
which the model also counts as undefined; only set bits are shifted. -/
def evalLoop (inp : List Nat) : Nat → List (BDD m) → Except Fault Nat
  | _, [] => .ok 0
  | i, b :: bs => do
      let r ← b.evalIn inp
      if r then
        if i ≥ 63 then .error .ub
        else
          let rest ← evalLoop inp (i + 1) bs
          .ok (2 ^ i + rest)
      else evalLoop inp (i + 1) bs

def evalFn (f : List (BDD m)) (inp : List Nat) : Except Fault Nat := evalLoop inp 0 f

/-- `(input & (1 << i)) > 0`, `/repo/src/util/cudd_helpers.cpp:44-45`; `/` and `%` of a positive number round
down, so this is bit `i` of the two's complement. `1 << 31` is `INT_MIN`, which selects all bits from 31 on; with a
negative `input` the sign bit stays and the comparison with 0 fails. -/
def adderBit (input : Int) (i : Nat) : Bool :=
  if i = 31 then decide (2 ^ 31 ≤ input) else decide (input / 2 ^ i % 2 = 1)

/-- `eval_adder`, `/repo/src/util/cudd_helpers.cpp:38-58`; `1 << i` is an `int` shift, undefined from
`i = 32` on. -/
def evalAdder (adder : List (BDD m)) (input1 input2 : Int) (bits : Nat) : Except Fault Nat :=
  if bits > 32 then .error .ub
  else evalFn adder ((List.range bits).flatMap
    (fun i => [(adderBit input1 i).toNat, (adderBit input2 i).toNat]))

/-- `full_adder`, `/repo/src/util/cudd_helpers.cpp:480-485`: (sum, carry out). -/
def fullAdder (f g c : BDD m) : BDD m × BDD m :=
  ((f.xor g).xor c, ((f.and g).or (f.and c)).or (g.and c))

/-- Loop of `bdd_add`, `/repo/src/util/cudd_helpers.cpp:606-611`. -/
def addLoop : List (BDD m) → List (BDD m) → BDD m → Except Fault (List (BDD m))
  | [], _, _ => .ok []
  | _ :: _, [], _ => .error .ub
  | f :: fs, g :: gs, c => do
      let rest ← addLoop fs gs (fullAdder f g c).2
      .ok ((fullAdder f g c).1 :: rest)

/-- `bdd_add`, `/repo/src/util/cudd_helpers.cpp:597-614`. -/
def bddAdd (f g : List (BDD m)) : Except Fault (List (BDD m)) := addLoop f g .zero

/-- Loop of `bdd_subtract`, `/repo/src/util/cudd_helpers.cpp:497-503`. -/
def subLoop : List (BDD m) → List (BDD m) → BDD m → Except Fault (List (BDD m))
  | [], _, _ => .ok []
  | _ :: _, [], _ => .error .ub
  | f :: fs, g :: gs, c => do
      let rest ← subLoop fs gs (fullAdder f g.not c).2
      .ok ((fullAdder f g.not c).1 :: rest)

/-- `bdd_subtract`, `/repo/src/util/cudd_helpers.cpp:487-506`. -/
def bddSubtract (minuend subtrahend : List (BDD m)) : Except Fault (List (BDD m)) :=
  subLoop minuend subtrahend .one

/-- `bdd_abs`, `/repo/src/util/cudd_helpers.cpp:548-573`. -/
def bddAbs (r : NumRep) (f : List (BDD m)) : Except Fault (List (BDD m)) := match r with
  | .baseTwo => .ok f
  | .twosComplement => do
      let sign ← vback f
      bddSubtract (f.map (·.xor sign)) (List.replicate f.length sign)

/-- One line of the size equalisation with sign extension,
`while (f_.size() < n) f_.push_back(f_.back());`, `/repo/src/util/cudd_helpers.cpp:526-527`. -/
def signExtend (f : List (BDD m)) (n : Nat) : Except Fault (List (BDD m)) :=
  if f.length < n then do
    let b ← vback f
    .ok (f ++ List.replicate (n - f.length) b)
  else .ok f

/-- The `smaller` loop, `/repo/src/util/cudd_helpers.cpp:529-537`. -/
def smallerLoop : List (BDD m) → List (BDD m) → Except Fault Bool
  | [], _ => .ok true
  | _ :: _, [] => .error .ub
  | f :: fs, g :: gs => if f.gt g then .ok false else smallerLoop fs gs

/-- The zero sign bit pushed for unsigned numbers, `/repo/src/util/cudd_helpers.cpp:517-523` and
`336-340`. -/
def withSignBit (r : NumRep) (f : List (BDD m)) : List (BDD m) := match r with
  | .baseTwo => f ++ [.zero]
  | .twosComplement => f

/-- `bdd_absolute_difference`, `/repo/src/util/cudd_helpers.cpp:508-546`. -/
def bddAbsoluteDifference (r : NumRep) (f g : List (BDD m)) : Except Fault (List (BDD m)) := do
  let f1 ← signExtend (withSignBit r f) (withSignBit r g).length
  let g1 ← signExtend (withSignBit r g) f1.length
  let smaller ← smallerLoop f1 g1
  let difference ← bddSubtract (if smaller then g1 else f1) (if smaller then f1 else g1)
  bddAbs .twosComplement difference

/-- `bdd_shift`, `/repo/src/util/cudd_helpers.cpp:575-595`. -/
def bddShift (f : List (BDD m)) (k : Int) : Except Fault (List (BDD m)) :=
  (List.range f.length).mapM fun (i : Nat) =>
    if (i : Int) < k ∨ (i : Int) ≥ (f.length : Int) + k then .ok .zero
    else vget f ((i : Int) - k).toNat

/-- `while (result.size() > fc.size()) fc.push_back(zero)`, `/repo/src/util/cudd_helpers.cpp:626-629`
and `686-698`: zero extension to at least `n` bits. -/
def zeroExtend (f : List (BDD m)) (n : Nat) : List (BDD m) :=
  f ++ List.replicate (n - f.length) .zero

/-- The shift-and-add loops, `/repo/src/util/cudd_helpers.cpp:638-644`, `647-654` and `677-683`:
for every `i` of the list whose bit is set in `factor`, add `fc` shifted by `sh i`. -/
def mulLoop (fc : List (BDD m)) (factor : Nat) (sh : Nat → Int) :
    List Nat → List (BDD m) → Except Fault (List (BDD m))
  | [], result => .ok result
  | i :: is, result =>
      if factor.testBit i then do
        let s ← bddShift fc (sh i)
        let r ← bddAdd result s
        mulLoop fc factor sh is r
      else mulLoop fc factor sh is result

/-- `bdd_multiply_constant(…, uint256_t factor)`, `/repo/src/util/cudd_helpers.cpp:659-685`.
`lg` is the value of `max(0.0, ceil(log2(double(factor))))`, which floating point rounding may make
one smaller than the exact `Nat.clog 2 factor`. -/
def bddMultiplyConstantLg (f : List (BDD m)) (factor lg : Nat) : Except Fault (List (BDD m)) :=
  mulLoop (zeroExtend f (f.length + (lg + 2))) factor (fun i => (i : Int)) (List.range 256)
    (List.replicate (f.length + (lg + 2)) .zero)

/-- `bdd_multiply_constant(…, uint256_t factor)` with the exact logarithm. -/
def bddMultiplyConstant (f : List (BDD m)) (factor : Nat) : Except Fault (List (BDD m)) :=
  bddMultiplyConstantLg f factor (Nat.clog 2 factor)

/-- `bdd_multiply_constant(…, double factor, unsigned num_extra_bits)`,
`/repo/src/util/cudd_helpers.cpp:616-657`.  `size_t(ceil(log2(factor)))` is undefined for
`factor ≤ 1/2` (negative or NaN operand); `1UL << num_extra_bits` is undefined from 64 on.  The
factor is an exact rational. -/
def bddMultiplyConstantQ (f : List (BDD m)) (factor : ℚ) (numExtraBits : Nat) :
    Except Fault (List (BDD m)) :=
  if factor ≤ 1 / 2 then .error .ub
  else if factor ≥ 2 ^ 256 then .error .assertion
  else if numExtraBits ≥ 64 then .error .ub
  else do
    let extraBits := Nat.clog 2 ⌈factor⌉.toNat + 2
    let fc := zeroExtend f (f.length + extraBits)
    let great := ⌊factor⌋.toNat
    let r1 ← mulLoop fc great (fun i => (i : Int)) (List.range 256)
      (List.replicate (f.length + extraBits) .zero)
    let lesser := ⌊(factor - ⌊factor⌋) * 2 ^ numExtraBits⌋.toNat
    mulLoop fc lesser (fun i => -((numExtraBits - i : Nat) : Int)) (List.range numExtraBits) r1

/-- `equalize_vector_size`, `/repo/src/util/cudd_helpers.cpp:686-698` (first vector). -/
def equalize1 (f1 f2 : List (BDD m)) : List (BDD m) := zeroExtend f1 f2.length

/-- The bit pairs of the equalised vectors, most significant first: what the loops
`for (int i = int(f1_.size()) - 1; i >= 0; i--)` (`/repo/src/util/cudd_helpers.cpp:711`, `758`,
`782`) visit. -/
def pairsDown (f1 f2 : List (BDD m)) : List (BDD m × BDD m) :=
  ((equalize1 f1 f2).zip (equalize1 f2 f1)).reverse

/-- Loop of `exists_greater_equals`, `/repo/src/util/cudd_helpers.cpp:711-728`. -/
def existsGeLoop : List (BDD m × BDD m) → BDD m → BDD m → Bool × Bool
  | [], _, ec => if ec.isZero then (false, false) else (true, true)
  | (a, b) :: ps, zc, ec =>
      if !((a.and (zc.and b.not)).isZero) then (true, false)
      else if !(((a.and b.not).and ec).isZero) then (true, false)
      else existsGeLoop ps (zc.and b.not) (ec.and ((a.and b).or (a.not.and b.not)))

/-- `exists_greater_equals`, `/repo/src/util/cudd_helpers.cpp:700-729`. -/
def existsGreaterEquals (f1 f2 : List (BDD m)) : Bool × Bool :=
  existsGeLoop (pairsDown f1 f2) .one .one

/-- `bdd_max_one`, `/repo/src/util/cudd_helpers.cpp:731-743`; `result[0]` of an empty vector is
undefined. -/
def bddMaxOne : List (BDD m) → Except Fault (List (BDD m))
  | [] => .error .ub
  | b :: bs => .ok (b.or (bs.foldr (fun c z => z.and c.not) .one) :: bs)

/-- Loop of `greater_equals` / `greater_than`, `/repo/src/util/cudd_helpers.cpp:758-764`,
`782-788`: the accumulated result and the final equality condition. -/
def geLoop : List (BDD m × BDD m) → BDD m → BDD m → BDD m → BDD m × BDD m
  | [], _, ec, res => (res, ec)
  | (a, b) :: ps, zc, ec, res =>
      geLoop ps (zc.and b.not) (ec.and ((a.and b).or (a.not.and b.not)))
        ((res.or (a.and (zc.and b.not))).or ((a.and b.not).and ec))

/-- `greater_equals`, `/repo/src/util/cudd_helpers.cpp:745-767`. -/
def greaterEquals (f g : List (BDD m)) : BDD m :=
  let r := geLoop (pairsDown f g) .one .one .zero
  r.1.or r.2

/-- `greater_than`, `/repo/src/util/cudd_helpers.cpp:769-790`. -/
def greaterThan (f g : List (BDD m)) : BDD m := (geLoop (pairsDown f g) .one .one .zero).1

/-- Loop of `bdd_divide`, `/repo/src/util/cudd_helpers.cpp:810-822`, run for the remaining
`k` iterations, i.e. for `i = k - 1 - extra_bits, …, -extra_bits`; the pushed conditions in the
order they are pushed. -/
def divLoop (g' : List (BDD m)) (extraBits : Nat) : Nat → List (BDD m) →
    Except Fault (List (BDD m))
  | 0, _ => .ok []
  | k + 1, temp => do
      let shifted ← bddShift g' ((k : Int) - extraBits)
      let cond := greaterEquals temp shifted
      let toSubtract := shifted.map (·.and cond)
      let temp' ← bddSubtract (equalize1 temp toSubtract) (equalize1 toSubtract temp)
      let rest ← divLoop g' extraBits k temp'
      .ok (cond :: rest)

/-- `bdd_divide`, `/repo/src/util/cudd_helpers.cpp:792-825`. -/
def bddDivide (f g : List (BDD m)) (extraBits : Nat) : Except Fault (List (BDD m)) := do
  let values := List.replicate extraBits BDD.zero
  let r ← divLoop (values ++ (g ++ List.replicate (f.length + 1) .zero)) extraBits
    (f.length + 2 + extraBits) (values ++ f)
  .ok r.reverse

/-- The `while (result.size() > 1 && result.back().IsZero()) result.pop_back()` loop of
`number_to_bdds`, `/repo/src/util/cudd_helpers.cpp:840-842`, on the reversed vector. -/
def popZeros : List (BDD m) → List (BDD m)
  | b :: c :: bs => if b.isZero then popZeros (c :: bs) else b :: c :: bs
  | l => l

/-- `number_to_bdds`, `/repo/src/util/cudd_helpers.cpp:827-844`. -/
def numberToBdds (number : Nat) : List (BDD m) :=
  (popZeros ((List.range 256).map
    (fun i => if number.testBit i then (BDD.one : BDD m) else .zero)).reverse).reverse

/-- `high`, `/repo/src/util/cudd_helpers.cpp:439-456`. -/
def high (v : BDD m) : Except Fault (BDD m) := match h : v.edge.n with
  | .one => .error .invalidArgument
  | .node _ t _ _ =>
      have wf : t.WF m := by have := v.wf; rw [h] at this; exact this.1
      -- `Cudd_IsComplement(n)`: negation of the handle of the regular then-child
      if v.edge.neg then .ok (BDD.not ⟨⟨false, t⟩, wf⟩) else .ok ⟨⟨false, t⟩, wf⟩

/-- `low`, `/repo/src/util/cudd_helpers.cpp:458-475`.  In the complemented case the code takes
`Cudd_Regular(Cudd_E(n))`, dropping the complement bit of the else-edge. -/
def low (v : BDD m) : Except Fault (BDD m) := match h : v.edge.n with
  | .one => .error .invalidArgument
  | .node _ _ c e =>
      have wf : e.WF m := by have := v.wf; rw [h] at this; exact this.2.1
      if v.edge.neg then .ok (BDD.not ⟨⟨false, e⟩, wf⟩) else .ok ⟨⟨c, e⟩, wf⟩

end Verif

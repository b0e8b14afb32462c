import Verif.Spec
import Mathlib.Algebra.BigOperators.Intervals
import Mathlib.Algebra.Order.BigOperators.Group.Finset

/-!
# What the errors of an approximate adder are expected to be

`s k` is the first bit used for the carry into position `k`.  Position `k + 1` is a boundary if `s k < s (k + 1)`:
only there a carry can get lost.
-/

namespace Verif

/-- The largest total weight of dropped carries up to position `k`: drop the one at the topmost boundary; all
positions of its window pass the carry on and the bit below generates it; go on below that bit. -/
def worstDrop (s : Nat → Nat) : Nat → Nat
  | 0 => 0
  | k + 1 => if s k < s (k + 1) then 2 ^ (k + 1) + worstDrop s (min (s (k + 1) - 1) k) else worstDrop s k
termination_by k => k
decreasing_by all_goals omega

/-- How often nothing is dropped up to the positions `0 … k`: the first dropped carry is the one into `k + 1` iff it
is generated at some `g` from `s k` to below `s (k + 1)` (one case in four), passed on by the positions from there
to `k` (one case in two each), and nothing is dropped up to `g`. -/
def cleanRates (s : Nat → Nat) : Nat → List ℚ
  | 0 => [1]
  | k + 1 => cleanRates s k ++ [(cleanRates s k).getD k 0 -
      ∑ g ∈ Finset.Ico (s k) (s (k + 1)), (cleanRates s k).getD g 0 / 2 ^ (k - g + 2)]

/-- Two carries are dropped, the later one into `j + 1`, only if its chain starts above the earlier position `i`: from
here on. -/
def laterStart (s : Nat → Nat) (i j : Nat) : Nat := min (max (s j) (i + 1)) (s (j + 1))

/-- The mean of the square of the total weight of the dropped carries: the squares of the weights and the products of
two weights, each times how often it occurs. -/
def meanSquareDrop (s : Nat → Nat) (n : Nat) : ℚ :=
  ∑ j ∈ Finset.range n, ((2 : ℚ) ^ j * (2 ^ s (j + 1) - 2 ^ s j) +
    ∑ i ∈ Finset.range j, ((2 : ℚ) ^ s (i + 1) - 2 ^ s i) * (2 ^ s (j + 1) - 2 ^ laterStart s i j) / 2)

/-- The largest number of bits that decide on one dropped carry. -/
def widestWindow (s : Nat → Nat) (n : Nat) : Nat :=
  (Finset.range n).sup fun k => if s k < s (k + 1) then k + 1 - s k else 0

/-- The mean square as the code counts it: over the inputs that decide on one dropped carry, each number of inputs on
which two carries are dropped rounded down. -/
def countedSquareDrop (s : Nat → Nat) (n : Nat) : ℚ :=
  ∑ j ∈ Finset.range n, ((2 : ℚ) ^ j * (2 ^ s (j + 1) - 2 ^ s j) +
    ∑ i ∈ Finset.range j, (2 : ℚ) ^ (i + j + 3) *
      ⌊((2 : ℚ) ^ s (i + 1) - 2 ^ s i) * (2 ^ s (j + 1) - 2 ^ laterStart s i j) / 2 ^ (i + j + 4) *
        2 ^ (2 * widestWindow s n)⌋ / 2 ^ (2 * widestWindow s n))

end Verif

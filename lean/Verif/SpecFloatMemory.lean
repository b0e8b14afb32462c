import Verif.SpecMemory

/-!
# Vocabulary for C127

The handles the operators touch if the counts they compare are rounded after every step.
-/

namespace Verif

/-- The share of a handle, computed on `double`s. -/
def shareF (rnd : ℚ → ℚ) : DD → Bool → ℚ
  | .one, neg => if neg then 0 else 1
  | .node _ t c e, neg => rnd (rnd (shareF rnd t neg / 2) + rnd (shareF rnd e (neg ^^ c) / 2))

/-- The level of a node, the constant being at level `tl`. -/
def levelOf (tl : Nat) : DD → Nat
  | .one => tl
  | .node v .. => v

/-- The number of solutions, computed on `double`s: a child counts twice for every level skipped. -/
def solutionsF (rnd : ℚ → ℚ) (tl : Nat) : DD → Bool → ℚ
  | .one, neg => if neg then 0 else 1
  | .node v t c e, neg =>
    rnd (rnd (solutionsF rnd tl t neg * 2 ^ (levelOf tl t - (v + 1))) +
      rnd (solutionsF rnd tl e (neg ^^ c) * 2 ^ (levelOf tl e - (v + 1))))

/-- `p` is further from one half than `q`, as far as the rounded difference tells. -/
def FurtherF (rnd : ℚ → ℚ) (p q : ℚ) : Prop := (p < q ∧ p < rnd (1 - q)) ∨ (q < p ∧ rnd (1 - q) < p)

instance (rnd : ℚ → ℚ) (p q : ℚ) : Decidable (FurtherF rnd p q) := inferInstanceAs (Decidable (_ ∨ _))

/-- `round_best` on `double`s goes into the child the other one is further from one half than. -/
def goBestF (rnd : ℚ → ℚ) (ls le v : Nat) (t e : Edge) : Option (Bool × Bool) :=
  if v < ls then some (true, true)
  else if v ≤ le then
    some (decide (FurtherF rnd (shareF rnd e.n e.neg) (shareF rnd t.n t.neg)),
      decide (FurtherF rnd (shareF rnd t.n t.neg) (shareF rnd e.n e.neg)))
  else none

end Verif

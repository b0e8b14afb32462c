import Verif.Spec
import Verif.Outcome
import Mathlib.Algebra.BigOperators.Expect

/-!
# Specification vocabulary: averages over random sequences

`rand()` is modelled by an arbitrary sequence of numbers.  What happens "on average" is said with the
plain mean over all sequences of a given length: every sequence of numbers from `0` to `RAND_MAX`
counts once.  Nothing here refers to the modelled code.
-/

namespace Verif

open scoped BigOperators

/-- Number of values `rand()` can have with glibc: `RAND_MAX + 1 = 2^31`. -/
def drawRange : Nat := 2147483648

/-- The numbers of a finite sequence, 0 after its end. -/
def seqOf {k n : Nat} (a : Fin k → Fin n) : Nat → Nat := fun i => if h : i < k then (a ⟨i, h⟩).val else 0

/-- The sequences of a finite family, all 0 after its end. -/
def seqsOf {s k n : Nat} (a : Fin s → Fin k → Fin n) : Nat → Nat → Nat :=
  fun i => if h : i < s then seqOf (a ⟨i, h⟩) else fun _ => 0

/-- Mean of `F` over all sequences of `k` draws. -/
noncomputable def meanDraws (k : Nat) (F : (Nat → Nat) → ℚ) : ℚ :=
  𝔼 a : Fin k → Fin drawRange, F (seqOf a)

/-- Mean of `F` over all families of `s` sequences of `k` draws each. -/
noncomputable def meanDraws2 (s k : Nat) (F : (Nat → Nat → Nat) → ℚ) : ℚ :=
  𝔼 a : Fin s → Fin k → Fin drawRange, F (seqsOf a)

/-- Mean of `F` over all families of `l` times `s` sequences of `k` draws each. -/
noncomputable def meanDraws3 (l s k : Nat) (F : (Nat → Nat → Nat → Nat) → ℚ) : ℚ :=
  𝔼 a : Fin l → Fin s → Fin k → Fin drawRange,
    F (fun i => if h : i < l then seqsOf (a ⟨i, h⟩) else fun _ _ => 0)

/-- The value of `g` at the result of a run, 0 if the run fails. -/
def atResult {α : Type _} (g : α → ℚ) : Except Fault α → ℚ
  | .ok a => g a
  | .error _ => 0

/-- 1 if the result of a run has the property, 0 if it has not or the run fails: the mean of this over
all sequences of draws is the probability of the property. -/
def hitProp {α : Type _} (A : α → Bool) : Except Fault α → ℚ := atResult (fun a => if A a then 1 else 0)

end Verif

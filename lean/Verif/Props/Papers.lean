import Verif.Proofs.Papers
import Verif.Proofs.Adders

/-!
# C81: the example functions of the two papers

`/repo/src/example_bdds/from_papers.cpp`; documented in `from_papers.hpp`.
-/

namespace Verif

variable {m : Mgr}

/-! ## C81 -/

/-- Figure 1(a) is the adder of two numbers of two bits. -/
theorem C81_example1a (x : Asg) : uAt (example1a : List (BDD m)) x = opA 2 x + opB 2 x := by
  simp only [uAt, bitsAt, example1a, List.map, eval_cube, eval_cubes, List.all, List.any,
    BDD.eval_not, BDD.eval_var, opA, opB, List.range_succ, List.range_zero, List.nil_append,
    List.cons_append, Nat.mul_zero, Nat.mul_one, Nat.zero_add]
  generalize x 0 = a
  generalize x 1 = b
  generalize x 2 = c
  generalize x (2 + 1) = d
  revert a b c d
  decide

/-- It is the function `regular_adder` builds. -/
theorem C81_example1a_regular_adder : regularAdder (m := m) 2 = .ok example1a := by
  obtain ⟨f, h1, h2⟩ := regularAdder_spec (m := m) 2
  rw [h1]
  apply congrArg Except.ok
  have hl := h2.len
  have hu : ∀ x, bitsAt f x = bitsAt (example1a : List (BDD m)) x := by
    intro x
    apply uval_inj
    · simp [bitsAt, hl, example1a]
    · have := (h2.exact_iff x).mpr (fun _ _ h => h)
      have h' := C81_example1a (m := m) x
      simp only [uAt] at this h'
      omega
  apply List.ext_getElem
  · simp [hl, example1a]
  · intro i hi hj
    apply BDD.ext_eval
    intro x
    have := congrArg (fun l => l[i]?) (hu x)
    simpa [bitsAt, hi, hj] using this

/-- Figures 1(b), 1(c) and 1(d) are Figure 1(a) rounded down, rounded up and rounded from the third
variable on. -/
theorem C81_figures (hm : m.Mono) :
    (example1a : List (BDD m)).mapM (roundDown · 2 4) = .ok example1b ∧
    (example1a : List (BDD m)).mapM (roundUp · 2 4) = .ok example1c ∧
    (example1a : List (BDD m)).mapM (roundBdd · 2) = .ok example1d := by
  have toOk : ∀ {α : Type} {r : Except Fault α} {a : α}, r.toOption = some a → r = .ok a := by
    intro α r a h
    cases r with
    | error e => simp [Except.toOption] at h
    | ok b => simpa [Except.toOption] using h
  refine ⟨?_, ?_, ?_⟩
  · exact mapM_ofId (fun h1 h2 h3 => roundDown_ofId hm h1 h2 h3) same1a same1b
      (toOk (by decide +kernel))
  · exact mapM_ofId (fun h1 h2 h3 => roundUp_ofId hm h1 h2 h3) same1a same1c
      (toOk (by decide +kernel))
  · exact mapM_ofId (fun h1 h2 h3 => roundBdd_ofId hm h1 h2 h3) same1a same1d
      (toOk (by decide +kernel))

/-- The first four variables in reverse order -/
def reversed4 : Mgr := ⟨fun v => if v < 4 then 3 - v else v, by
  intro a b h; split at h <;> split at h <;> omega⟩

/-- With another order of the variables that fails: the levels of the operators are indices. -/
theorem C81_figures_need_order :
    (example1a : List (BDD reversed4)).mapM (roundBdd · 2) ≠ .ok example1d := by
  intro h
  have h' := congrArg Except.toOption h
  have : ((example1a : List (BDD reversed4)).mapM (roundBdd · 2)).toOption ≠ some example1d := by
    decide +kernel
  exact this h'

/-- Worst-case errors of the three figures: 6, 6 and 4. -/
theorem C81_figure_errors :
    IsMax (absErrAt (example1a : List (BDD m)) example1b) 6 ∧
    IsMax (absErrAt (example1a : List (BDD m)) example1c) 6 ∧
    IsMax (absErrAt (example1a : List (BDD m)) example1d) 4 := by
  have key : ∀ x : Asg, (|(uAt (example1a : List (BDD m)) x : Int) - uAt (example1b : List (BDD m)) x| ≤ 6) ∧
      (|(uAt (example1a : List (BDD m)) x : Int) - uAt (example1c : List (BDD m)) x| ≤ 6) ∧
      (|(uAt (example1a : List (BDD m)) x : Int) - uAt (example1d : List (BDD m)) x| ≤ 4) := by
    intro x
    simp only [uAt, bitsAt, example1a, example1b, example1c, example1d, List.map, eval_cube,
      eval_cubes, List.all, List.any, BDD.eval_not, BDD.eval_var, BDD.eval_one, BDD.eval_zero]
    generalize x 0 = a
    generalize x 1 = b
    generalize x 2 = c
    generalize x 3 = d
    revert a b c d
    decide
  refine ⟨⟨⟨fun _ => true, ?_⟩, fun x => ?_⟩, ⟨⟨fun _ => false, ?_⟩, fun x => ?_⟩,
    ⟨⟨fun v => v == 0 || v == 2 || v == 3, ?_⟩, fun x => ?_⟩⟩
  · simp [absErrAt, uAt, bitsAt, example1a, example1b, eval_cube, eval_cubes, uval]
  · rw [absErrAt]; exact_mod_cast (key x).1
  · simp [absErrAt, uAt, bitsAt, example1a, example1c, eval_cube, eval_cubes, uval]
  · rw [absErrAt]; exact_mod_cast (key x).2.1
  · simp [absErrAt, uAt, bitsAt, example1a, example1d, eval_cube, eval_cubes, uval]
  · rw [absErrAt]; exact_mod_cast (key x).2.2

/-- Rounding down only removes, rounding up only adds: in every bit. -/
theorem C81_figure_bits (x : Asg) (i : Nat) :
    ((bitsAt (example1b : List (BDD m)) x)[i]? = some true → (bitsAt (example1a : List (BDD m)) x)[i]? = some true) ∧
    ((bitsAt (example1a : List (BDD m)) x)[i]? = some true → (bitsAt (example1c : List (BDD m)) x)[i]? = some true) := by
  simp only [bitsAt, example1a, example1b, example1c, List.map, eval_cube,
      eval_cubes, List.all, List.any, BDD.eval_not, BDD.eval_var, BDD.eval_one]
  generalize x 0 = a
  generalize x 1 = b
  generalize x 2 = c
  generalize x 3 = d
  match i with
  | 0 => revert a b c d; decide
  | 1 => revert a b c d; decide
  | 2 => revert a b c d; decide
  | i + 3 => simp

/-- The values of Example 3. -/
theorem C81_example3 (x : Asg) : uAt (example3 : List (BDD m)) x =
    if x 1 then (if x 0 then 12 else 13) else (if x 0 then 6 else 10) := by
  simp only [uAt, bitsAt, example3, List.map, eval_cube, eval_cubes, List.all, List.any,
    BDD.eval_not, BDD.eval_var, BDD.eval_zero]
  generalize x 0 = a
  generalize x 1 = b
  revert a b
  decide

/-- The values of the running example, by the number with the bits `x_3 x_2 x_1`. -/
theorem C81_running_example (x : Asg) : uAt (runningExample : List (BDD m)) x =
    [1, 1, 1, 2, 3, 2, 2, 1].getD (uval [x 2, x 1, x 0]) 0 := by
  simp only [uAt, bitsAt, runningExample, List.map, eval_cube, eval_cubes, List.all, List.any,
    BDD.eval_not, BDD.eval_var]
  generalize x 0 = a
  generalize x 1 = b
  generalize x 2 = c
  revert a b c
  decide

example : Mgr.id.Mono := fun _ _ h => h
example : uAt (example1a : List (BDD .id)) (fun v => v == 0 || v == 2 || v == 3) = 5 := by
  rw [C81_example1a]; decide

end Verif

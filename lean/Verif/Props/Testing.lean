import Verif.Model.Experiments
import Verif.Proofs.Papers
import Verif.Proofs.Experiments

/-! # C81, continued: the functions drawn by `/repo/experiments/testing.cpp` -/

namespace Verif

variable {m : Mgr}

/-- The running example and the running example rounded up at the middle variable: the first bit becomes
`!x_3 | x_2 | !x_1`, the second `x_3 | !x_2 | x_1`. -/
theorem C81_testing (hm : m.Mono) : ∃ r : List (BDD m), testingMain m = .ok (r, runningExample) ∧
    ∀ x, bitsAt r x = [!x 0 || x 1 || !x 2, x 0 || !x 1 || x 2] := by
  have toOk : ∀ {α : Type} {r : Except Fault α} {a : α}, r.toOption = some a → r = .ok a := by
    intro α r a h
    cases r with
    | error e => simp [Except.toOption] at h
    | ok b => simpa [Except.toOption] using h
  let first (m : Mgr) : BDD m := ((BDD.var 0).not.or (.var 1)).or (BDD.var 2).not
  let second (m : Mgr) : BDD m := ((BDD.var 0).or (BDD.var 1).not).or (.var 2)
  have hf : ∀ m : Mgr, ∀ x, (first m).eval x = (!x 0 || x 1 || !x 2) := fun m x => by
    simp [first]
  have hs : ∀ m : Mgr, ∀ x, (second m).eval x = (x 0 || !x 1 || x 2) := fun m x => by
    simp [second]
  obtain ⟨a, b, hab⟩ : ∃ a b : (m : Mgr) → BDD m, ∀ m, runningExample = [a m, b m] :=
    ⟨fun _ => _, fun _ => _, fun _ => rfl⟩
  have hev : ∀ x, (a m).eval x = (a .id).eval x ∧ (b m).eval x = (b .id).eval x := fun x => by
    have e : ∀ m : Mgr, (runningExample : List (BDD m)).map (·.eval x) =
        (runningExample : List (BDD .id)).map (·.eval x) := fun m => by
      simp only [runningExample, List.map, eval_cube, eval_cubes, List.all, List.any, BDD.eval_not, BDD.eval_var]
    have := e m
    rw [hab, hab] at this
    simpa using this
  have hid : (roundOutputs (fun fi => roundUp fi 1 1) (runningExample : List (BDD .id))).toOption =
      some [first .id, second .id] := by decide +kernel
  have hid := toOk hid
  rw [hab] at hid
  obtain ⟨r1, e1, hid⟩ := bind_ok (show (do
    let r ← roundUp (a .id) 1 1
    let rs ← roundOutputs (fun fi => roundUp fi 1 1) [b .id]
    Except.ok (r :: rs)) = .ok [first .id, second .id] from hid)
  obtain ⟨rs, hrs, hid⟩ := bind_ok hid
  obtain ⟨r2, e2, hrs⟩ := bind_ok (show (do
    let r ← roundUp (b .id) 1 1
    Except.ok [r]) = .ok rs from hrs)
  cases hrs
  cases hid
  have g1 := roundUp_ofId hm (f := a m) (r := first m) (fun x => (hev x).1) (fun x => by rw [hf, hf]) e1
  have g2 := roundUp_ofId hm (f := b m) (r := second m) (fun x => (hev x).2) (fun x => by rw [hs, hs]) e2
  refine ⟨[first m, second m], ?_, fun x => by simp [bitsAt, hf, hs]⟩
  simp only [testingMain, hab, roundOutputs, g1, g2, bind, Except.bind]

example : Mgr.id.Mono := fun _ _ h => h

end Verif

import Verif.Model.Experiments
import Verif.Model.DotText

/-! # What `testing` writes -/

namespace Verif

/-- `main`, `/repo/experiments/testing.cpp:11-31`: the files and the text on the standard output. All functions are alive
when the drawings are written, so one `addr` gives the pointers. -/
def testingProgram (m : Mgr) (asserts : Bool) (addr : Edge → Nat) (canOpen : List Char → Bool) (files : Files) :
    Except Fault (Files × List Char) := do
  let (roundedUp, f) ← testingMain m
  let files ← dumpDotToFile asserts {} addr canOpen files roundedUp "rounded.dot".toList [] [] true none
  let first ← dumpDotText asserts {} addr roundedUp [] [] true none
  let files ← dumpDotToFile asserts {} addr canOpen files f "running.dot".toList [] [] true none
  let second ← dumpDotText asserts {} addr f [] [] true none
  .ok (files, first ++ second)

end Verif

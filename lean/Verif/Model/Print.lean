import Mathlib.Data.Int.Log
import Verif.Model.FloatNsga
import Verif.Model.FloatExperiments
import Verif.Model.FloatBenchmark

/-!
# What the executables print

The texts that the programs under `/repo/experiments` hand to `std::cout`, with the clock readings as parameters: an
elapsed time is a number of ticks of `std::chrono::high_resolution_clock`, nanoseconds (64 bit, and negative if the
clock was set back). A fault ends the program; what was printed before it is kept. Numbers of type `cpp_dec_float_100`
are printed like `double`s.
-/

namespace Verif

variable {m : Mgr}

/-- The nearest whole number, the even one if there are two. -/
def roundEven (q : ℚ) : Nat :=
  let f := ⌊q⌋₊
  if q - f < 1 / 2 then f else if 1 / 2 < q - f then f + 1 else if f % 2 = 0 then f else f + 1

/-- Six digits and the exponent of the first for a positive number; in `%g` this is the `%e` style with precision 5. -/
def sixOf (a : ℚ) : Nat × ℤ :=
  let e := Int.log 10 a
  let d := roundEven (a / (10 : ℚ) ^ (e - 5))
  if d = 1000000 then (100000, e + 1) else (d, e)

/-- The six digits as characters. -/
def sixChars (d : Nat) : List Char :=
  [d / 100000 % 10, d / 10000 % 10, d / 1000 % 10, d / 100 % 10, d / 10 % 10, d % 10].map Nat.digitChar

/-- The zeros at the end are not printed by `%g`. -/
def dropZeros : List Char → List Char
  | [] => []
  | c :: cs => if dropZeros cs = [] ∧ c = '0' then [] else c :: dropZeros cs

/-- A number without zeros at the end of the fraction. -/
def withPoint (whole frac : List Char) : List Char :=
  if dropZeros frac = [] then whole else whole ++ '.' :: dropZeros frac

/-- The exponent, with at least two digits. -/
def expText (e : ℤ) : List Char :=
  ['e', if e < 0 then '-' else '+'] ++ ((if e.natAbs < 10 then ['0'] else []) ++ Nat.toDigits 10 e.natAbs)

/-- A positive number as `%g` prints it. -/
def formatPos (a : ℚ) : List Char :=
  let e := (sixOf a).2
  let ds := sixChars (sixOf a).1
  if 0 ≤ e ∧ e < 6 then withPoint (ds.take (e.toNat + 1)) (ds.drop (e.toNat + 1))
  else if -4 ≤ e ∧ e < 0 then withPoint ['0'] (List.replicate (-e - 1).toNat '0' ++ ds)
  else withPoint (ds.take 1) (ds.drop 1) ++ expText e

/-- `std::cout << double`, e.g. `/repo/experiments/minimization/bucket/minimize_adders.cpp:35`: `%g` with six significant
digits. -/
def formatG (q : ℚ) : List Char :=
  if q = 0 then ['0'] else if q < 0 then '-' :: formatPos (-q) else formatPos q

/-- `duration_cast<duration<double>>(after - before).count() * 1000.0`,
`/repo/src/minimization/minimization_helper.cpp:91-98`. -/
def elapsedMs (rnd : ℚ → ℚ) (ticks : Int) : ℚ := rnd (rnd (rnd ticks / 1000000000) * 1000)

/-- The elapsed time as it is printed, `/repo/experiments/minimization/bucket/minimize_adders.cpp:37`. -/
def timeText (rnd : ℚ → ℚ) (ticks : Int) : Except Fault (List Char) := formatTimeF rnd (elapsedMs rnd ticks)

/-- The elapsed time of the genetic minimisation: stored as `std::size_t`,
`/repo/experiments/minimization/nsga2/nsga2_minimization_helper.cpp:80-83`, and printed,
`/repo/experiments/minimization/nsga2/nsga2_minimize_adders.cpp:26`. -/
def timeTextN (rnd : ℚ → ℚ) (ticks : Int) : Except Fault (List Char) := do
  let n ← toSizeT (elapsedMs rnd ticks)
  formatTimeF rnd (rnd n)

/-- `std::size_t` and `int`, `/repo/experiments/minimization/bucket/minimize_adders.cpp:34`. -/
def natText (n : Nat) : List Char := Nat.toDigits 10 n

/-- The rows of a table, as far as they get, e.g. `/repo/experiments/minimization/bucket/minimize_iscas.cpp:17-36`. -/
def printRows : List (Except Fault (List Char)) → List Char × Option Fault
  | [] => ([], none)
  | .error e :: _ => ([], some e)
  | .ok t :: rest => (t ++ (printRows rest).1, (printRows rest).2)

/-- The line of figures, `/repo/experiments/minimization/bucket/minimize_adders.cpp:34-37`. -/
def adderLine (rnd : ℚ → ℚ) (ticks : Int) (size found : Nat) (er ace : ℚ) : Except Fault (List Char) := do
  let time ← timeText rnd ticks
  .ok (natText size ++ ";".toList ++ natText found ++ ";".toList ++ formatG er ++ ";".toList ++ formatG ace ++
    ";".toList ++ time ++ "\n".toList)

/-- A line of the table of buckets, `/repo/experiments/minimization/bucket/minimize_adders.cpp:44-57`. -/
def bucketLine (idxs : List Nat) : Option (Nat × ℚ × ℚ) → List Char
  | none => idxs.flatMap (fun j => natText j ++ ";".toList) ++ "NaN;NaN;NaN\n".toList
  | some (size, a, b) => idxs.flatMap (fun j => natText j ++ ";".toList) ++
      (natText size ++ ";".toList ++ formatG a ++ ";".toList ++ formatG b ++ "\n".toList)

/-- `main`, `/repo/experiments/minimization/bucket/minimize_adders.cpp:10-63`: the text. -/
def minimizeAddersText (rnd dec cv : ℚ → ℚ) (asserts : Bool) (fuel : Nat) (files : String → List AigEvent × Bool)
    (rs : Nat → Nat) (ticks : Int) (m : Mgr) : List Char × Option Fault :=
  let body : Except Fault (List Char) := do
    let r ← minimizeAddersMainF rnd dec cv asserts fuel files rs m
    let line ← adderLine rnd ticks r.1.1 r.1.2.1 r.1.2.2.1 r.1.2.2.2
    .ok (line ++ "\nBuckets:\n".toList ++ r.2.flatMap (fun row => bucketLine row.1 row.2) ++ "\n".toList)
  let rows := printRows [body]
  ("size f;size fhat;error rate;average case error;runtime\n".toList ++ rows.1, rows.2)

/-- A line, `/repo/experiments/minimization/bucket/minimize_iscas.cpp:33-35`,
`/repo/experiments/minimization/bucket/minimize_epfl.cpp:32-34` and, with the times of the genetic minimisation,
`/repo/experiments/minimization/nsga2/nsga2_minimize_iscas.cpp:32-34`. -/
def circuitLine (time : Except Fault (List Char)) (name : List Char) (size found : Nat) (er : ℚ) :
    Except Fault (List Char) := do
  let time ← time
  .ok (name ++ ", ".toList ++ natText size ++ ", ".toList ++ natText found ++ ", ".toList ++ formatG er ++ ", ".toList ++
    time ++ "\n".toList)

/-- `main`, `/repo/experiments/minimization/bucket/minimize_iscas.cpp:11-38` and, with the paths and names of the other
files, `/repo/experiments/minimization/bucket/minimize_epfl.cpp:11-37`: the text for the files `list`; `mgr` are the
orders of the variables found by sifting. -/
def minimizeCircuitsText (rnd dec cv : ℚ → ℚ) (asserts : Bool) (fuel : Nat) (files : String → List AigEvent × Bool)
    (rs : Nat → Nat) (filepath filename : Nat → Except Fault String) (ticks : Nat → Int) (mgr : Nat → Mgr)
    (list : List Nat) : List Char × Option Fault :=
  let rows := printRows (list.map fun file => do
    let r ← minimizeCircuitRowF rnd dec cv asserts fuel files rs filepath filename file (mgr file)
    circuitLine (timeText rnd (ticks file)) r.1.toList r.2.1 r.2.2.1 r.2.2.2)
  ("Function name, original size, smallest size found, corresponding error rate, runtime\n".toList ++ rows.1, rows.2)

/-- `main`, `/repo/experiments/minimization/bucket/minimize_iscas.cpp:11-38`. -/
def minimizeIscasText (rnd dec cv : ℚ → ℚ) (asserts : Bool) (fuel : Nat) (files : String → List AigEvent × Bool)
    (rs : Nat → Nat) (ticks : Nat → Int) (mgr : Nat → Mgr) : List Char × Option Fault :=
  minimizeCircuitsText rnd dec cv asserts fuel files rs iscasFilepath iscasFilename ticks mgr minimizeIscasFiles

/-- `main`, `/repo/experiments/minimization/bucket/minimize_epfl.cpp:11-37`. -/
def minimizeEpflText (rnd dec cv : ℚ → ℚ) (asserts : Bool) (fuel : Nat) (files : String → List AigEvent × Bool)
    (rs : Nat → Nat) (ticks : Nat → Int) (mgr : Nat → Mgr) : List Char × Option Fault :=
  minimizeCircuitsText rnd dec cv asserts fuel files rs epflFilepath epflFilename ticks mgr minimizeEpflFiles

/-- A line, `/repo/experiments/minimization/nsga2/nsga2_minimize_adders.cpp:24-26`. -/
def nsgaAdderLine (rnd : ℚ → ℚ) (ticks : Int) (bits size found : Nat) (er ace : ℚ) : Except Fault (List Char) := do
  let time ← timeTextN rnd ticks
  .ok (natText bits ++ ", ".toList ++ natText size ++ ", ".toList ++ natText found ++ ", ".toList ++ formatG er ++
    ", ".toList ++ formatG ace ++ ", ".toList ++ time ++ "\n".toList)

/-- `main`, `/repo/experiments/minimization/nsga2/nsga2_minimize_adders.cpp:9-30`: the text; `pops`, `ticks` and `mgr` for
every number of bits. -/
def nsgaAddersText (rnd dec cv fl : ℚ → ℚ) (rs : Nat → Nat) (pops : Nat → Nat → List (List ℚ)) (fuel : Nat)
    (ticks : Nat → Int) (mgr : Nat → Mgr) : List Char × Option Fault :=
  let rows := printRows (nsgaAdderArgs.map fun e => do
    let r ← nsgaAdderRowF rnd dec cv fl rs e.1 e.2 (pops e.1) fuel (mgr e.1)
    nsgaAdderLine rnd (ticks e.1) r.1 r.2.1 r.2.2.1 r.2.2.2.1 r.2.2.2.2)
  ("Bits, Orig. Size, Approx. Size, ER, ACR, Time\n".toList ++ rows.1, rows.2)

/-- `main`, `/repo/experiments/minimization/nsga2/nsga2_minimize_iscas.cpp:10-38`: the text. -/
def nsgaIscasText (rnd dec cv fl : ℚ → ℚ) (asserts : Bool) (files : String → List AigEvent × Bool) (rs : Nat → Nat)
    (pops : String → Nat → List (List ℚ)) (fuel : Nat) (ticks : String → Int) (mgr : String → Mgr) :
    List Char × Option Fault :=
  let rows := printRows (nsgaIscasFiles.map fun file => do
    let r ← nsgaIscasRowF rnd dec cv fl asserts files rs file (pops file) fuel (mgr file)
    circuitLine (timeTextN rnd (ticks file)) r.1.toList r.2.1 r.2.2.1 r.2.2.2)
  ("File, Orig. Size, Approx. Size, ER, Time\n".toList ++ rows.1, rows.2)

/-- `main`, `/repo/experiments/minimization/nsga2/nsga2_minimize_epfl.cpp:10-40`: the text. -/
def nsgaEpflText (rnd dec cv fl : ℚ → ℚ) (asserts : Bool) (files : String → List AigEvent × Bool) (rs : Nat → Nat)
    (pops : Nat → Nat → List (List ℚ)) (fuel : Nat) (ticks : Nat → Int) (mgr : Nat → Mgr) : List Char × Option Fault :=
  let rows := printRows (nsgaEpflFiles.map fun file => do
    let r ← nsgaEpflRowF rnd dec cv fl asserts files rs file (pops file) fuel (mgr file)
    circuitLine (timeTextN rnd (ticks file)) r.1.toList r.2.1 r.2.2.1 r.2.2.2)
  ("File, Orig. Size, Approx. Size, ER, Time\n".toList ++ rows.1, rows.2)

/-- A line, `/repo/experiments/misc/er_ace_adder_comparison.cpp:24`. -/
def comparisonLine (name : List Char) (er ace wc : ℚ) : List Char :=
  name ++ ";".toList ++ formatG er ++ ";".toList ++ formatG ace ++ ";".toList ++ formatG wc ++ "\n".toList

/-- `main`, `/repo/experiments/misc/er_ace_adder_comparison.cpp:27-57`: the text; every row has its own manager, `s`
being the table of constants of a new one. -/
def comparisonText (A : AddEnv) (dec cv lg : ℚ → ℚ) (asserts : Bool) (rs : Nat → Nat → Nat → Nat) (fuel : Nat)
    (mgr : ApproxAdder × Nat × Nat × Nat → Mgr) (last : Mgr) (s : CTab) : List Char × Option Fault :=
  printRows (adderComparisonRows.map (fun e => do
    let r ← adderComparisonRowF A dec cv lg asserts rs fuel e.1 e.2.1 e.2.2.1 e.2.2.2 (mgr e) s
    .ok (comparisonLine r.1 r.2.1 r.2.2.1 r.2.2.2)) ++ [do
    let q ← adderComparisonLast last
    .ok (formatG q ++ "\n".toList)])

end Verif

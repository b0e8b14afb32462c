import Verif.Spec
import Verif.Model.Bucket

/-!
# `src/parsing`, `src/util/function.cpp`

lorina's text parsing is not modelled: a file is the sequence of callbacks lorina makes
(`PlaEvent`, `AigEvent`).  Strings are lists of characters.  Simplifications: memory does not run
out, and variable indices are below CUDD's maximum.
-/

namespace Verif

variable {m : Mgr}

/-- Writing `v[i]` of a `std::vector`, e.g. `/repo/src/parsing/aig_parser.cpp:34`. -/
def vset {α : Type _} (l : List α) (i : Nat) (a : α) : Except Fault (List α) :=
  if i < l.length then .ok (l.set i a) else .error .ub

/-- `assert(c)`, e.g. `/repo/src/parsing/aig_parser.cpp:31`; without effect if `NDEBUG` is defined. -/
def check (asserts c : Bool) : Except Fault Unit :=
  if asserts && !c then .error .assertion else .ok ()

/-! ## `string_helpers.hpp` -/

/-- The characters that separate the tokens of `std::istream_iterator<std::string>`,
`/repo/src/util/string_helpers.hpp:42-44`. -/
def isSpace (c : Char) : Bool := c = ' ' || (9 ≤ c.toNat && c.toNat ≤ 13)

/-- `std::copy` from `istream_iterator`s, `/repo/src/util/string_helpers.hpp:42-44`; second argument: the
token being read, reversed. -/
def tokens : List Char → List Char → List (List Char)
  | [], [] => []
  | [], cur => [cur.reverse]
  | c :: cs, cur =>
    if isSpace c then (match cur with
      | [] => tokens cs []
      | cur => cur.reverse :: tokens cs [])
    else tokens cs (c :: cur)

/-- `split`, `/repo/src/util/string_helpers.hpp:39-45`. -/
def split (str : List Char) (cont : List (List Char)) : List (List Char) := cont ++ tokens str []

/-! ## `pla_parser.cpp` -/

/-- The members of `pla_parser` and the manager's variable names,
`/repo/src/parsing/pla_parser.hpp:24-28`. -/
structure PlaState (m : Mgr) where
  bddVars : List (BDD m)
  outputs : List (BDD m)
  inNames : List (List Char)
  outNames : List (List Char)
  mgrNames : List (List Char)

/-- `on_number_of_inputs`, `/repo/src/parsing/pla_parser.cpp:11-18`. -/
def onNumberOfInputs (n : Nat) (s : PlaState m) : PlaState m :=
  { s with bddVars := s.bddVars ++ (List.range n).map BDD.var }

/-- `on_number_of_outputs`, `/repo/src/parsing/pla_parser.cpp:20-27`. -/
def onNumberOfOutputs (n : Nat) (s : PlaState m) : PlaState m :=
  { s with outputs := s.outputs ++ List.replicate n BDD.zero }

/-- `on_keyword`, `/repo/src/parsing/pla_parser.cpp:41-61`; the result says whether the keyword is
known. -/
def onKeyword (key value : List Char) (s : PlaState m) : Bool × PlaState m :=
  if key = "ilb".toList then
    let names := split value s.inNames
    (true, { s with inNames := names, mgrNames := s.mgrNames ++ names })
  else if key = "ob".toList then (true, { s with outNames := split value s.outNames })
  else (false, s)

/-- The `switch`, `/repo/src/parsing/pla_parser.cpp:73-78`. -/
def cubeStep (vars : List (BDD m)) (c : Char) (i : Nat) (cube : BDD m) : Except Fault (BDD m) :=
  if c = '0' then do
    let v ← vget vars i
    .ok (cube.and v.not)
  else if c = '1' then do
    let v ← vget vars i
    .ok (cube.and v)
  else .ok cube

/-- The loop over the cube, `/repo/src/parsing/pla_parser.cpp:71-79`. -/
def cubeLoop (vars : List (BDD m)) : List Char → Nat → BDD m → Except Fault (BDD m)
  | [], _, cube => .ok cube
  | c :: cs, i, cube => do
    let cube' ← cubeStep vars c i cube
    cubeLoop vars cs (i + 1) cube'

/-- The loop over the outputs, `/repo/src/parsing/pla_parser.cpp:81-87`. -/
def outLoop (cube : BDD m) : List Char → Nat → List (BDD m) → Except Fault (List (BDD m))
  | [], _, os => .ok os
  | c :: cs, i, os =>
    if c = '1' then do
      let o ← vget os i
      outLoop cube cs (i + 1) (os.set i (o.or cube))
    else outLoop cube cs (i + 1) os

/-- `on_term`, `/repo/src/parsing/pla_parser.cpp:63-88`. -/
def onTerm (term out : List Char) (s : PlaState m) : Except Fault (PlaState m) := do
  let cube ← cubeLoop s.bddVars term 0 .one
  let os ← outLoop cube out 0 s.outputs
  .ok { s with outputs := os }

/-- One callback; `on_number_of_terms`, `/repo/src/parsing/pla_parser.cpp:35-39`, does nothing. -/
def plaStep (s : PlaState m) : PlaEvent → Except Fault (PlaState m)
  | .inputs n => .ok (onNumberOfInputs n s)
  | .outputs n => .ok (onNumberOfOutputs n s)
  | .terms _ => .ok s
  | .keyword k v => .ok (onKeyword k v s).2
  | .term t o => onTerm t o s

/-- The callbacks of a file, as `lorina::read_pla` makes them
(`/repo/src/minimization/minimization_helper.cpp` and `/repo/tests/parsing_test.cpp`). -/
def plaRun : List PlaEvent → PlaState m → Except Fault (PlaState m)
  | [], s => .ok s
  | e :: es, s => do
    let s' ← plaStep s e
    plaRun es s'

/-- `pla_parser::pla_parser`, `/repo/src/parsing/pla_parser.hpp:38-46`: the vectors are the caller's. -/
def plaNew (out : List (BDD m)) (innames outnames : List (List Char)) : PlaState m :=
  ⟨[], out, innames, outnames, []⟩

/-! ## `aig_parser.cpp` -/

/-- The members of `aig_parser`, `/repo/src/parsing/aig_parser.hpp:28-37`. -/
structure AigState (m : Mgr) where
  numVariables : Nat := 0
  numLiterals : Nat := 0
  numInputs : Nat := 0
  numOutputs : Nat := 0
  numGates : Nat := 0
  outputIndices : List Nat := []
  inputNames : List (List Char) := []
  outputNames : List (List Char) := []
  literals : List (Option (BDD m)) := []

/-- `std::vector::resize`, `/repo/src/parsing/aig_parser.cpp:17`. -/
def vresize {α : Type _} (l : List α) (n : Nat) (a : α) : List α :=
  l.take n ++ List.replicate (n - l.length) a

/-- `on_header`, `/repo/src/parsing/aig_parser.cpp:11-27`. -/
def onHeader (v i o a : Nat) (s : AigState m) : Except Fault (AigState m) := do
  let n := uszt (v * 2 + 2)
  let ls ← vset (vresize s.literals n none) 0 (some .zero)
  let ls ← vset ls 1 (some .one)
  .ok { numVariables := v, numLiterals := n, numInputs := i, numOutputs := o, numGates := a,
        outputIndices := vresize s.outputIndices o 0, inputNames := vresize s.inputNames i [],
        outputNames := vresize s.outputNames o [], literals := ls }

/-- `on_input`, `/repo/src/parsing/aig_parser.cpp:29-35`. -/
def onInput (asserts : Bool) (index lit : Nat) (s : AigState m) : Except Fault (AigState m) := do
  check asserts (decide (index < s.numInputs))
  check asserts (decide (lit < s.numLiterals))
  let ls ← vset s.literals lit (some (.var index))
  .ok { s with literals := ls }

/-- `on_output`, `/repo/src/parsing/aig_parser.cpp:37-43`. -/
def onOutput (asserts : Bool) (index lit : Nat) (s : AigState m) : Except Fault (AigState m) := do
  check asserts (decide (index < s.numOutputs))
  check asserts (decide (lit < s.numLiterals))
  let os ← vset s.outputIndices index lit
  .ok { s with outputIndices := os }

/-- The second half of `find_literal`, `/repo/src/parsing/aig_parser.cpp:91-100`. -/
def findInverted (ls : List (Option (BDD m))) (lit : Nat) :
    Except Fault (BDD m × List (Option (BDD m))) :=
  if lit % 2 = 1 then
    match vget ls (lit - 1) with
    | .error e => .error e
    | .ok (some b) => .ok (b.not, ls.set lit (some b.not))
    | .ok none => .error .invalidArgument
  else .error .invalidArgument

/-- `find_literal`, `/repo/src/parsing/aig_parser.cpp:84-101`: the literal, and the table to which the
literal is added if it is the negation of a known one. -/
def findLiteral (ls : List (Option (BDD m))) (lit : Nat) :
    Except Fault (BDD m × List (Option (BDD m))) :=
  match vget ls lit with
  | .error e => .error e
  | .ok (some b) => .ok (b, ls)
  | .ok none => findInverted ls lit

/-- `assert(!literals[index * 2])`, `/repo/src/parsing/aig_parser.cpp:51`. -/
def checkUnset (asserts : Bool) (ls : List (Option (BDD m))) (i : Nat) : Except Fault Unit :=
  if asserts then
    match vget ls i with
    | .error e => .error e
    | .ok o => check asserts o.isNone
  else .ok ()

/-- `on_and`, `/repo/src/parsing/aig_parser.cpp:45-56`; `index * 2` is an `unsigned`. -/
def onAnd (asserts : Bool) (index left right : Nat) (s : AigState m) : Except Fault (AigState m) := do
  check asserts (decide (index * 2 % 2 ^ 32 ≤ s.numLiterals))
  check asserts (decide (left < s.numLiterals) && decide (right < s.numLiterals))
  checkUnset asserts s.literals (index * 2 % 2 ^ 32)
  let (l, ls) ← findLiteral s.literals left
  let (r, ls) ← findLiteral ls right
  let ls ← vset ls (index * 2 % 2 ^ 32) (some (l.and r))
  .ok { s with literals := ls }

/-- `on_input_name`, `/repo/src/parsing/aig_parser.cpp:58-63`. -/
def onInputName (asserts : Bool) (index : Nat) (name : List Char) (s : AigState m) :
    Except Fault (AigState m) := do
  check asserts (decide (index ≤ s.numInputs))
  let ns ← vset s.inputNames index name
  .ok { s with inputNames := ns }

/-- `on_output_name`, `/repo/src/parsing/aig_parser.cpp:65-70`. -/
def onOutputName (asserts : Bool) (index : Nat) (name : List Char) (s : AigState m) :
    Except Fault (AigState m) := do
  check asserts (decide (index ≤ s.numOutputs))
  let ns ← vset s.outputNames index name
  .ok { s with outputNames := ns }

/-- `on_latch`, `on_bad_state`, `on_constraint`, `on_fairness`, `on_justice`,
`/repo/src/parsing/aig_parser.cpp:104-127`. -/
def onUnsupported (asserts : Bool) (s : AigState m) : Except Fault (AigState m) := do
  check asserts false
  .ok s

/-- One callback. -/
def aigStep (asserts : Bool) (s : AigState m) : AigEvent → Except Fault (AigState m)
  | .header v i _ o a => onHeader v i o a s
  | .input i l => onInput asserts i l s
  | .output i l => onOutput asserts i l s
  | .gate g l r => onAnd asserts g l r s
  | .inputName i n => onInputName asserts i n s
  | .outputName i n => onOutputName asserts i n s
  | _ => onUnsupported asserts s

/-- The callbacks of a file, as `lorina::read_aiger` makes them
(`/repo/src/minimization/minimization_helper.cpp`). -/
def aigRun (asserts : Bool) : List AigEvent → AigState m → Except Fault (AigState m)
  | [], s => .ok s
  | e :: es, s => do
    let s' ← aigStep asserts s e
    aigRun asserts es s'

/-- The loop of `get_outputs`, `/repo/src/parsing/aig_parser.cpp:76-79`. -/
def outputsLoop : List Nat → List (Option (BDD m)) → Except Fault (List (BDD m))
  | [], _ => .ok []
  | o :: os, ls => do
    let (b, ls) ← findLiteral ls o
    let r ← outputsLoop os ls
    .ok (b :: r)

/-- `get_outputs`, `/repo/src/parsing/aig_parser.cpp:72-81`. -/
def getOutputs (s : AigState m) : Except Fault (List (BDD m)) :=
  outputsLoop s.outputIndices s.literals

/-! ## `function.cpp` -/

/-- `class Function`, `/repo/src/util/function.hpp:10-32`; the manager is implicit. -/
structure AboFunction (m : Mgr) where
  value : List (BDD m)
  representation : NumRep

namespace AboFunction

/-- `Function::Function`, `/repo/src/util/function.cpp:7-13`. -/
def new (asserts : Bool) (value : List (BDD m)) (r : NumRep) : Except Fault (AboFunction m) := do
  check asserts (decide (0 < value.length))
  .ok ⟨value, r⟩

/-- `Function::operator[]`, `/repo/src/util/function.cpp:15-21`. -/
def at_ (f : AboFunction m) (i : Nat) : Except Fault (BDD m) := match f.value[i]? with
  | some b => .ok b
  | none => .error .outOfRange

/-- Assignment through the reference `operator[]` returns, `/repo/src/util/function.cpp:15-17`. -/
def assign (f : AboFunction m) (i : Nat) (b : BDD m) : Except Fault (AboFunction m) :=
  if i < f.value.length then .ok { f with value := f.value.set i b } else .error .outOfRange

/-- Loop of `operator&=`, `/repo/src/util/function.cpp:36-38`. -/
def andLoop (b : BDD m) : List (BDD m) → List (BDD m)
  | [] => []
  | own :: rest => own.and b :: andLoop b rest

/-- Loop of `operator|=`, `/repo/src/util/function.cpp:42-44`. -/
def orLoop (b : BDD m) : List (BDD m) → List (BDD m)
  | [] => []
  | own :: rest => own.or b :: orLoop b rest

/-- `Function::operator&=`, `/repo/src/util/function.cpp:35-39`: the object afterwards. -/
def andAssign (f : AboFunction m) (b : BDD m) : AboFunction m := { f with value := andLoop b f.value }

/-- `Function::operator|=`, `/repo/src/util/function.cpp:41-45`. -/
def orAssign (f : AboFunction m) (b : BDD m) : AboFunction m := { f with value := orLoop b f.value }

/-- `Function::operator&`, `/repo/src/util/function.cpp:23-27`: works on a copy; the result is the
operand afterwards and the value returned. -/
def and (f : AboFunction m) (b : BDD m) : AboFunction m × AboFunction m :=
  let result := f
  (f, result.andAssign b)

/-- `Function::operator|`, `/repo/src/util/function.cpp:29-33`. -/
def or (f : AboFunction m) (b : BDD m) : AboFunction m × AboFunction m :=
  let result := f
  (f, result.orAssign b)

/-- `Function::num_bits`, `/repo/src/util/function.hpp:25`. -/
def numBits (f : AboFunction m) : Nat := f.value.length

/-- `Function::is_signed`, `/repo/src/util/function.hpp:26`. -/
def isSigned (f : AboFunction m) : Bool := f.representation = .twosComplement

end AboFunction

end Verif

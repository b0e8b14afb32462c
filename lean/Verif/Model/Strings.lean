import Verif.Model.Parsing

/-!
# C strings for CUDD: `/repo/src/util/string_helpers.cpp` and `dump_dot` of `/repo/src/util/cudd_helpers.cpp`

The heap is a list of blocks; the address of a block is its position and a freed block leaves a gap, so an
address is never used twice. Reading memory that was not written, accessing a freed block or memory outside of a
block and deleting anything but a live block are undefined behaviour. Allocation succeeds.
-/

namespace Verif

variable {m : Mgr}

/-- What `new char[n]` and `new char*[n]` return, `/repo/src/util/string_helpers.cpp:10-15`; `none` is memory that
has not been written. -/
inductive Block
  | chars (c : List (Option Char))
  | ptrs (p : List (Option Nat))
  deriving DecidableEq, Repr

/-- The heap, used by `/repo/src/util/string_helpers.cpp:7-29`; freed blocks are `none`. -/
abbrev Heap := List (Option Block)

namespace Heap

/-- `new …[n]`, `/repo/src/util/string_helpers.cpp:10`. -/
def alloc (h : Heap) (b : Block) : Nat × Heap := (h.length, h ++ [some b])

/-- Access to the live block at an address, as in `/repo/src/util/string_helpers.cpp:15`. -/
def block (h : Heap) (a : Nat) : Except Fault Block :=
  match h[a]? with
  | some (some b) => .ok b
  | _ => .error .ub

/-- `delete[] p`, `/repo/src/util/string_helpers.cpp:26-28`: nothing happens for the null pointer. -/
def free (h : Heap) : Option Nat → Except Fault Heap
  | none => .ok h
  | some a => do
    let _ ← h.block a
    .ok (h.set a none)

/-- `arr[i] = p`, `/repo/src/util/string_helpers.cpp:15`. -/
def setPtr (h : Heap) (arr i p : Nat) : Except Fault Heap := do
  match ← h.block arr with
  | .ptrs l =>
    let l ← vset l i (some p)
    .ok (h.set arr (some (.ptrs l)))
  | .chars _ => .error .ub

/-- `arr[i]`, `/repo/src/util/string_helpers.cpp:26`: undefined for the null pointer, beyond the end and if `arr[i]`
was never assigned. -/
def getPtr (h : Heap) (arr : Option Nat) (i : Nat) : Except Fault Nat :=
  match arr with
  | none => .error .ub
  | some a => do
    match ← h.block a with
    | .ptrs l =>
      match ← vget l i with
      | some p => .ok p
      | none => .error .ub
    | .chars _ => .error .ub

end Heap

/-- The characters `strncpy` writes, `/repo/src/util/string_helpers.cpp:16`: those of the source up to its
terminating NUL, filled up with NULs. -/
def strncpyChars : Nat → List Char → Except Fault (List Char)
  | 0, _ => .ok []
  | _ + 1, [] => .error .ub
  | n + 1, c :: cs =>
    if c = '\x00' then .ok (List.replicate (n + 1) '\x00')
    else do
      let r ← strncpyChars n cs
      .ok (c :: r)

/-- `strncpy(dst, src, n)`, `/repo/src/util/string_helpers.cpp:16`. -/
def Heap.strncpy (h : Heap) (dst : Nat) (src : List Char) (n : Nat) : Except Fault Heap := do
  let cs ← strncpyChars n src
  match ← h.block dst with
  | .chars l =>
    if l.length < n then .error .ub
    else .ok (h.set dst (some (.chars (cs.map some ++ l.drop n))))
  | .ptrs _ => .error .ub

/-- The loop of `vec_to_arr`, `/repo/src/util/string_helpers.cpp:12-17`. -/
def vecToArrLoop (arr : Nat) : List (List Char) → Nat → Heap → Except Fault Heap
  | [], _, h => .ok h
  | s :: ss, i, h => do
    let n := s.length + 1
    let (a, h) := h.alloc (.chars (List.replicate n none))
    let h ← h.setPtr arr i a
    let h ← h.strncpy a (s ++ ['\x00']) n
    vecToArrLoop arr ss (i + 1) h

/-- `vec_to_arr`, `/repo/src/util/string_helpers.cpp:7-20`: the pointer it returns and the heap after the call. -/
def vecToArr (vec : List (List Char)) (h : Heap) : Except Fault (Nat × Heap) := do
  let (arr, h) := h.alloc (.ptrs (List.replicate vec.length none))
  let h ← vecToArrLoop arr vec 0 h
  .ok (arr, h)

/-- The loop of `del_arr`, `/repo/src/util/string_helpers.cpp:24-27`: `k` entries from `i` on. -/
def delArrLoop (arr : Option Nat) : Nat → Nat → Heap → Except Fault Heap
  | 0, _, h => .ok h
  | k + 1, i, h => do
    let p ← h.getPtr arr i
    let h ← h.free (some p)
    delArrLoop arr k (i + 1) h

/-- `del_arr`, `/repo/src/util/string_helpers.cpp:22-29`. -/
def delArr (arr : Option Nat) (n : Nat) (h : Heap) : Except Fault Heap := do
  let h ← delArrLoop arr n 0 h
  h.free arr

/-- The characters of a C string: up to the first NUL, undefined if there is none. -/
def cstrChars : List (Option Char) → Except Fault (List Char)
  | [] => .error .ub
  | none :: _ => .error .ub
  | some c :: cs =>
    if c = '\x00' then .ok []
    else do
      let r ← cstrChars cs
      .ok (c :: r)

/-- Reading `arr[i]` as a C string, as `Cudd_DumpDot` does with `%s`; called at
`/repo/src/util/cudd_helpers.cpp:419`. -/
def Heap.readName (h : Heap) (arr : Option Nat) (i : Nat) : Except Fault (List Char) := do
  let p ← h.getPtr arr i
  match ← h.block p with
  | .chars l => cstrChars l
  | .ptrs _ => .error .ub

/-- A label in CUDD's drawing: a name, or a number if no names were given. -/
inductive DotLabel
  | name (s : List Char)
  | number (n : Nat)
  deriving DecidableEq, Repr

/-- The label of one variable or function in `Cudd_DumpDot`, called at `/repo/src/util/cudd_helpers.cpp:419`. -/
def dotLabel (h : Heap) (arr : Option Nat) (i : Nat) : Except Fault (Nat × DotLabel) :=
  match arr with
  | none => .ok (i, .number i)
  | some a => do
    let s ← h.readName (some a) i
    .ok (i, .name s)

/-- The labels `Cudd_DumpDot` writes (`/repo/src/util/cudd_helpers.cpp:419`): one for every variable in the support
of the functions and one for every function. The order of the variables in the drawing and its nodes and edges
are not modelled here. -/
def cuddDumpDot (h : Heap) (bdd : List (BDD m)) (ins outs : Option Nat) :
    Except Fault (List (Nat × DotLabel) × List (Nat × DotLabel)) := do
  let vs ← ((bdd.flatMap BDD.supportIndices).dedup.insertionSort (· ≤ ·)).mapM (dotLabel h ins)
  let fs ← (List.range bdd.length).mapM (dotLabel h outs)
  .ok (vs, fs)

/-- `names.empty() ? nullptr : vec_to_arr(names)`, `/repo/src/util/cudd_helpers.cpp:416-417`. -/
def namesArr (names : List (List Char)) (h : Heap) : Except Fault (Option Nat × Heap) :=
  if names.isEmpty then .ok (none, h)
  else do
    let (a, h) ← vecToArr names h
    .ok (some a, h)

/-- `dump_dot` for a forest, `/repo/src/util/cudd_helpers.cpp:405-423`: the labels of the drawing (nothing is drawn
for an empty forest) and the heap after the call. -/
def dumpDotForest (bdd : List (BDD m)) (innames outnames : List (List Char)) (h : Heap) :
    Except Fault (Option (List (Nat × DotLabel) × List (Nat × DotLabel)) × Heap) :=
  if bdd.isEmpty then .ok (none, h)
  else do
    let (ins, h) ← namesArr innames h
    let (outs, h) ← namesArr outnames h
    let r ← cuddDumpDot h bdd ins outs
    let h ← delArr ins innames.length h
    let h ← delArr outs outnames.length h
    .ok (some r, h)

/-- `dump_dot` for a single BDD, `/repo/src/util/cudd_helpers.cpp:425-432`. -/
def dumpDotSingle (bdd : BDD m) (inames : List (List Char)) (funname : List Char) (h : Heap) :
    Except Fault (Option (List (Nat × DotLabel) × List (Nat × DotLabel)) × Heap) :=
  dumpDotForest [bdd] inames [funname] h

end Verif

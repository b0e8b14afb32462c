import Verif.DD.BDD
import Mathlib.Algebra.BigOperators.Group.Finset.Basic
import Mathlib.Algebra.BigOperators.Ring.Finset
import Mathlib.Data.Fintype.BigOperators

/-!
# Specification vocabulary

Everything the property theorems say is said with the notions of this file.  None of
them refers to the modelled code: they are about lists of bits, assignments and
rational numbers.
-/

namespace Verif

/-- Number representation of a vector of bits (`/repo/src/util/cudd_helpers.hpp`,
`enum class NumberRepresentation`). -/
inductive NumRep
  | baseTwo
  | twosComplement
  deriving DecidableEq, Repr

/-- Unsigned value of a list of bits, least significant bit first. -/
def uval : List Bool → Nat
  | [] => 0
  | b :: bs => b.toNat + 2 * uval bs

/-- Two's complement value: the unsigned value, minus `2^n` if the last (sign) bit is set. -/
def tcval (bs : List Bool) : Int :=
  (uval bs : Int) - (if bs.getLast? = some true then 2 ^ bs.length else 0)

variable {m : Mgr}

/-- The output bits of a vector of BDDs at an input. -/
def bitsAt (f : List (BDD m)) (x : Asg) : List Bool := f.map (·.eval x)

/-- Unsigned output value at an input. -/
def uAt (f : List (BDD m)) (x : Asg) : Nat := uval (bitsAt f x)

/-- Signed output value at an input. -/
def sAt (f : List (BDD m)) (x : Asg) : Int := tcval (bitsAt f x)

/-- Output value in the given representation. -/
def valAt (r : NumRep) (f : List (BDD m)) (x : Asg) : Int := match r with
  | .baseTwo => (uAt f x : Int)
  | .twosComplement => sAt f x

/-- `v` is the maximum of `g` over all assignments: an upper bound that is attained. -/
def IsMax {α : Type _} [LE α] (g : Asg → α) (v : α) : Prop := (∃ x, g x = v) ∧ ∀ x, g x ≤ v

/-- Extend a valuation of the first `N` variables by `false`. -/
def ext {N : Nat} (a : Fin N → Bool) : Asg := fun v => if h : v < N then a ⟨v, h⟩ else false

/-- Arithmetic mean of `g` over all `2^N` assignments of the variables `0 … N-1`. -/
def mean (N : Nat) (g : Asg → ℚ) : ℚ := (∑ a : Fin N → Bool, g (ext a)) / 2 ^ N

/-- Number of assignments of the variables `0 … N-1` satisfying a predicate. -/
def count (N : Nat) (g : Asg → Bool) : Nat :=
  (Finset.univ.filter (fun a : Fin N → Bool => g (ext a) = true)).card

/-- All variables that occur in the functions are below `N`. -/
def Fits (N : Nat) (f : List (BDD m)) : Prop := ∀ b ∈ f, ∀ v ∈ b.supportIndices, v < N

instance (N : Nat) (f : List (BDD m)) : Decidable (Fits N f) := by
  unfold Fits; infer_instance

/-- Number of differing positions of two bit lists (Hamming distance). -/
def hamming : List Bool → List Bool → Nat
  | a :: as, b :: bs => (a ^^ b).toNat + hamming as bs
  | _, _ => 0

/-- The handles reachable from a handle by following then- and else-edges (including itself), with
the complement bits multiplied out, as `Cudd_T`/`Cudd_E`/`Cudd_NotCond` give them. -/
def DD.reach : DD → Bool → List Edge
  | .one, neg => [⟨neg, .one⟩]
  | .node v t c e, neg => ⟨neg, .node v t c e⟩ :: (t.reach neg ++ e.reach (neg ^^ c))

/-- The variable order is the index order (no reordering took place). -/
def Mgr.Mono (m : Mgr) : Prop := ∀ a b, a < b → m.lvl a < m.lvl b

/-- The variables below `j` from `x`, the others from `y`. -/
def mix (j : Nat) (x y : Asg) : Asg := fun v => if v < j then x v else y v

/-- The function `g` with the variables below `j` fixed as in `x` and variable `j` set to `b`. -/
def cofAt (g : Asg → Bool) (j : Nat) (x : Asg) (b : Bool) : Asg → Bool :=
  fun y => g (Function.update (mix j x y) j b)

/-- With the variables below `j` fixed as in `x`, the function `g` depends on variable `j`. -/
def DepAt (g : Asg → Bool) (j : Nat) (x : Asg) : Prop := ∃ y, cofAt g j x true y ≠ cofAt g j x false y

/-- Size of the ON-set of `g` as a fraction of all inputs. -/
def onSet (N : Nat) (g : Asg → Bool) : ℚ := mean N (fun y => if g y then 1 else 0)

/-- Fraction of the inputs on which two functions differ. -/
def errRate (N : Nat) (g h : Asg → Bool) : ℚ := mean N (fun y => if g y = h y then 0 else 1)

/-- For some level `j` in the range at which `g` depends on `j` (given the earlier variables as in
`x`), `x` takes the child to be removed: the one with the smaller weight `μ`, or with `heavy` the
one with the larger weight.  In a tie the light child is the then-child. -/
def HitAt (μ : (Asg → Bool) → ℚ) (heavy : Bool) (ls le : Nat) (g : Asg → Bool) (x : Asg) : Prop :=
  ∃ j, ls ≤ j ∧ j ≤ le ∧ DepAt g j x ∧
    (x j = true ↔ (heavy = true ↔ μ (cofAt g j x true) > μ (cofAt g j x false)))

/-- `h` is obtained from `g` by replacing, below the prefix `x`, one of the children at level `j` by
a terminal. -/
def OneChildReplaced (g h : Asg → Bool) (j : Nat) (x : Asg) : Prop :=
  ∃ b z : Bool, (∀ y, cofAt h j x b y = z) ∧ cofAt h j x (!b) = cofAt g j x (!b)

/-- Error below the prefix `x`. -/
def localErr (N : Nat) (g h : Asg → Bool) (j : Nat) (x : Asg) : ℚ :=
  errRate N (fun y => g (mix j x y)) (fun y => h (mix j x y))

open Classical in
/-- Index of the first variable a function depends on, or `tl` if it is constant. -/
noncomputable def firstVar (tl : Nat) (g : Asg → Bool) : Nat :=
  if h : ∃ i, ∃ y, g (Function.update y i true) ≠ g (Function.update y i false)
  then Nat.find h else tl

/-- Assignment giving the variables `lo, lo+1, …` the values of `a`, `false` elsewhere. -/
def extFrom (lo : Nat) {n : Nat} (a : Fin n → Bool) : Asg :=
  fun v => if h : lo ≤ v ∧ v - lo < n then a ⟨v - lo, h.2⟩ else false

/-- Number of assignments of the `n` variables `lo … lo+n-1` satisfying a predicate. -/
def countFrom (lo n : Nat) (g : Asg → Bool) : Nat :=
  (Finset.univ.filter (fun a : Fin n → Bool => g (extFrom lo a) = true)).card

/-- Relative error at an input: the absolute difference divided by the exact value, or by 1 if the
exact value is 0. -/
def relErrAt (r : NumRep) (f g : List (BDD m)) (x : Asg) : ℚ :=
  ((|valAt r f x - valAt r g x| : Int) : ℚ) / max 1 ((|valAt r f x| : Int) : ℚ)

/-- A two's complement number needs at least its sign bit. -/
def SignOk (r : NumRep) (f : List (BDD m)) : Prop := r = .twosComplement → f ≠ []

/-- No difference of the two's complement values leaves the number range: the signed
`bdd_absolute_difference` has no extra bit (C04). -/
def NoWrap (r : NumRep) (f g : List (BDD m)) : Prop :=
  r = .twosComplement → ∀ x, 2 * |sAt f x - sAt g x| ≤ 2 ^ max f.length g.length

/-- First operand of an adder of width `n`: its bits are the variables `0, 2, 4, …`. -/
def opA (n : Nat) (x : Asg) : Nat := uval ((List.range n).map (fun i => x (2 * i)))

/-- Second operand of an adder of width `n`: its bits are the variables `1, 3, 5, …`. -/
def opB (n : Nat) (x : Asg) : Nat := uval ((List.range n).map (fun i => x (2 * i + 1)))

/-- What an adder of width `n ≤ 32` gets for an operand: its residue modulo `2^n`, except that at width 32 the top
bit says whether the operand is at least `2^31`. -/
def adderOperand (n : Nat) (a : Int) : Nat :=
  if n ≤ 31 then (a % 2 ^ n).toNat else (a % 2 ^ 31).toNat + if 2 ^ 31 ≤ a then 2 ^ 31 else 0

/-- The carry into position `k` when only the bits `s … k-1` of the two numbers are added. -/
def carryFrom (a b s k : Nat) : Bool :=
  decide (2 ^ (k - s) ≤ a / 2 ^ s % 2 ^ (k - s) + b / 2 ^ s % 2 ^ (k - s))

/-- First bit used for the carry into position `k` of `almost_correct_adder_1`. -/
def aca1Start (p k : Nat) : Nat := k - (p - 1)

/-- First bit used for the carry into position `k` of the block adders with blocks of length `l` and
`q` bits of prediction: the last block boundary at or below `k` (but above 1 and below `n`), less
`q`. -/
def blockStart (n l q k : Nat) : Nat :=
  if min k (n - 1) / l * l < 2 then 0 else min k (n - 1) / l * l - q

/-- First bit used for the carry into position `k` of `generic_accuracy_reconfigurable_adder`: that of
the last sub adder that ends at or below `k`. -/
def gearStart (n res prev k : Nat) : Nat :=
  if min k (n - 1) < res + prev then 0
  else min k (n - 1) - (min k (n - 1) - (res + prev)) % res - prev

/-- What is to be shown of an approximate adder with the starting positions `s` for its carries: its bits,
when it is exact, which carries are missing from the result, and which bits are always exact. -/
def WindowAdder (n : Nat) (s : Nat → Nat) (f : List (BDD m)) : Prop :=
  ∀ x,
    (∀ i < n, (uAt f x).testBit i =
      ((opA n x).testBit i ^^ (opB n x).testBit i ^^ carryFrom (opA n x) (opB n x) (s i) i)) ∧
    (uAt f x).testBit n = carryFrom (opA n x) (opB n x) (s n) n ∧
    (uAt f x = opA n x + opB n x ↔ ∀ k ≤ n, carryFrom (opA n x) (opB n x) 0 k = true →
      carryFrom (opA n x) (opB n x) (s k) k = true) ∧
    uAt f x + ∑ i ∈ Finset.range n, 2 ^ (i + 1) * (carryFrom (opA n x) (opB n x) (s i) (i + 1) &&
      !carryFrom (opA n x) (opB n x) (s (i + 1)) (i + 1)).toNat = opA n x + opB n x ∧
    ∀ i ≤ n, s i = 0 → (uAt f x).testBit i = (opA n x + opB n x).testBit i

/-- Position of the grid point `idx` of the grid with the given side lengths in row-major order. -/
def rank : List Nat → List Nat → Nat
  | _ :: bs, i :: is => i * bs.prod + rank bs is
  | _, _ => 0

/-- `idx` is a point of the grid. -/
def InBox (idx bounds : List Nat) : Prop := List.Forall₂ (· < ·) idx bounds

/-- Componentwise order of grid points. -/
def LeIdx (i j : List Nat) : Prop := List.Forall₂ (· ≤ ·) i j

/-- `g` is the result of applying a sequence of the operators `ops` to `f`. -/
inductive Reach {α ε : Type _} (ops : List (α → Except ε α)) (f : α) : α → Prop
  | refl : Reach ops f f
  | step {g h : α} {op : α → Except ε α} : Reach ops f g → op ∈ ops → op g = .ok h → Reach ops f h

/-- A way from `f` to a function: operators (by number) with the functions they were applied to, the
last one first.  Every step makes the function smaller. -/
inductive Way {α ε : Type _} (size : α → Nat) (ops : List (α → Except ε α)) (f : α) :
    List (Nat × α) → α → Prop
  | start : Way size ops f [] f
  | step {w : List (Nat × α)} {g h : α} {o : Nat} {op : α → Except ε α} : Way size ops f w g →
      ops[o]? = some op → op g = .ok h → size h < size g → Way size ops f ((o, g) :: w) h

/-- `s` is `g` or what an operator before number `o` makes of it. -/
def Tried {α ε : Type _} (ops : List (α → Except ε α)) (g : α) (o : Nat) (s : α) : Prop :=
  s = g ∨ ∃ o' < o, ∃ op, ops[o']? = some op ∧ op g = .ok s

/-- Reasons to give operator `o` up after trying it on `g`: the result has an error that is too large, or
more than 3/2 of the size of something tried before. -/
def MayDrop {α ε : Type _} (size : α → Nat) (over : α → Prop) (ops : List (α → Except ε α)) (g : α)
    (o : Nat) : Prop :=
  ∃ op h, ops[o]? = some op ∧ op g = .ok h ∧ (over h ∨ ∃ s, Tried ops g o s ∧ size s * 3 / 2 < size h)

/-- Reasons that suffice: more than 3/2 of the size of `g`; or the first error is too large although the
result is smaller than everything tried before. -/
def MustDrop {α ε : Type _} (size : α → Nat) (overFirst : α → Prop) (ops : List (α → Except ε α)) (g : α)
    (o : Nat) : Prop :=
  ∃ op h, ops[o]? = some op ∧ op g = .ok h ∧
    (size g * 3 / 2 < size h ∨ overFirst h ∧ ∀ s, Tried ops g o s → size h < size s)

/-! ## Input files as callback sequences -/

/-- What the PLA reader of lorina reports to `pla_parser` (`/repo/src/parsing/pla_parser.hpp:51-74`). -/
inductive PlaEvent
  | inputs (n : Nat)
  | outputs (n : Nat)
  | terms (n : Nat)
  | keyword (key value : List Char)
  | term (cube out : List Char)
  deriving DecidableEq

/-- The variables the input columns of a PLA file stand for: those of the first declaration
`0, 1, …`; a second declaration starts at 0 again. -/
def plaColumns (es : List PlaEvent) : List Nat :=
  es.flatMap fun | .inputs n => List.range n | _ => []

/-- The number of declared outputs. -/
def plaOutputs (es : List PlaEvent) : Nat := (es.map fun | .outputs n => n | _ => 0).sum

/-- The input satisfies every literal of the cube; `cols` gives the variable of each column. -/
def CubeAt (cols : List Nat) (cube : List Char) (x : Asg) : Prop :=
  ∀ (i v : Nat), cols[i]? = some v →
    (cube[i]? = some '0' → x v = false) ∧ (cube[i]? = some '1' → x v = true)

/-- Every literal of every cube has a column and every `1` of an output part an output, counting only
what is declared before the term: `ni` columns and `no` outputs are there to begin with. -/
def PlaInRange : Nat → Nat → List PlaEvent → Prop
  | _, _, [] => True
  | ni, no, .inputs n :: es => PlaInRange (ni + n) no es
  | ni, no, .outputs n :: es => PlaInRange ni (no + n) es
  | ni, no, .terms _ :: es => PlaInRange ni no es
  | ni, no, .keyword _ _ :: es => PlaInRange ni no es
  | ni, no, .term cube out :: es =>
    (∀ i < cube.length, cube[i]? = some '0' ∨ cube[i]? = some '1' → i < ni) ∧
    (∀ i < out.length, out[i]? = some '1' → i < no) ∧ PlaInRange ni no es

/-- White space as `std::isspace` of the C locale has it. -/
def White (c : Char) : Prop := c ∈ [' ', '\t', '\n', '\x0b', '\x0c', '\r']

/-- A text made of words with white space around them: leading white space, then words each followed
by white space. -/
def interleave (lead : List Char) : List (List Char × List Char) → List Char
  | [] => lead
  | (w, gap) :: ps => lead ++ w ++ interleave gap ps

/-- What the AIGER reader of lorina reports to `aig_parser` (`/repo/src/parsing/aig_parser.hpp:67-97`). -/
inductive AigEvent
  | header (m i l o a : Nat)
  | input (index lit : Nat)
  | output (index lit : Nat)
  | gate (index left right : Nat)
  | inputName (index : Nat) (name : List Char)
  | outputName (index : Nat) (name : List Char)
  | latch | badState | constraint | fairness | justice
  deriving DecidableEq

/-- `σ` gives the values of the literals of the circuit at the input `x`: literal 0 is false, odd
literals are negations, an input literal has the value of its input and an and gate that of the
conjunction. -/
structure AigValues (es : List AigEvent) (x : Asg) (σ : Nat → Bool) : Prop where
  zero : σ 0 = false
  neg : ∀ v, σ (2 * v + 1) = !σ (2 * v)
  input : ∀ i l, .input i l ∈ es → σ l = x i
  gate : ∀ g l r, .gate g l r ∈ es → σ (2 * g) = (σ l && σ r)

/-- Well formed body of a file with `vs` variables, `ni` inputs and `no` outputs: only inputs, outputs,
gates and names, variables are declared once and before they are used as gate operands.  `ds` are the
variables declared so far. -/
def AigBody (vs ni no : Nat) : List Nat → List AigEvent → Prop
  | _, [] => True
  | ds, .input i l :: es => i < ni ∧ l % 2 = 0 ∧ 1 ≤ l / 2 ∧ l / 2 ≤ vs ∧ l / 2 ∉ ds ∧
      AigBody vs ni no (l / 2 :: ds) es
  | ds, .gate g l r :: es => 1 ≤ g ∧ g ≤ vs ∧ g ∉ ds ∧ (l / 2 = 0 ∨ l / 2 ∈ ds) ∧
      (r / 2 = 0 ∨ r / 2 ∈ ds) ∧ AigBody vs ni no (g :: ds) es
  | ds, .output i l :: es => i < no ∧ l < 2 * vs + 2 ∧ AigBody vs ni no ds es
  | ds, .inputName i _ :: es => i < ni ∧ AigBody vs ni no ds es
  | ds, .outputName i _ :: es => i < no ∧ AigBody vs ni no ds es
  | _, _ :: _ => False

/-- The variables declared by inputs and gates. -/
def aigDeclared (es : List AigEvent) : List Nat :=
  es.flatMap fun | .input _ l => [l / 2] | .gate g _ _ => [g] | _ => []

/-- The literal last reported for output `j`; 0 if there is none. -/
def aigOutput (j : Nat) (es : List AigEvent) : Nat :=
  (es.reverse.findSome? fun | .output i l => if i = j then some l else none | _ => none).getD 0

/-! ## Drawings -/

/-- A statement of the graph written by `dump_dot_readable`, without its attributes for layout
(`/repo/src/util/dump_dot.cpp:124-343`).  Nodes are identified by the handles whose addresses are printed. -/
inductive DotStmt
  /-- node showing a function name -/
  | funName (name : List Char)
  /-- edges without colour, for the layout -/
  | invisible (funs : List (List Char)) (nodes : List Edge)
  /-- edge from a function name to a node -/
  | link (name : List Char) (node : Edge)
  /-- inner node with its label -/
  | node (n : Edge) (label : List Char)
  /-- terminal node showing the truth value -/
  | terminal (n : Edge) (b : Bool)
  | solid (a b : Edge)
  | dashed (a b : Edge)
  deriving DecidableEq

/-- Reading a drawing: from a node, following solid edges out of nodes whose label is true and dashed edges
out of nodes whose label is false, the terminal `b` can be reached. -/
inductive DotWalk (g : List DotStmt) (val : List Char → Bool) : Edge → Bool → Prop
  | terminal {n : Edge} {b : Bool} : .terminal n b ∈ g → DotWalk g val n b
  | solid {n n' : Edge} {l : List Char} {b : Bool} : .node n l ∈ g → val l = true → .solid n n' ∈ g →
      DotWalk g val n' b → DotWalk g val n b
  | dashed {n n' : Edge} {l : List Char} {b : Bool} : .node n l ∈ g → val l = false → .dashed n n' ∈ g →
      DotWalk g val n' b → DotWalk g val n b

/-- The nodes declared in a drawing, in order. -/
def dotNodes (g : List DotStmt) : List Edge :=
  g.filterMap fun | .node n _ => some n | .terminal n _ => some n | _ => none

/-- The visible edges of a drawing: tail, head, whether it is solid. -/
def dotEdges (g : List DotStmt) : List (Edge × Edge × Bool) :=
  g.filterMap fun | .solid a b => some (a, b, true) | .dashed a b => some (a, b, false) | _ => none

/-- The names shown for functions. -/
def dotNames (g : List DotStmt) : List (List Char) :=
  g.filterMap fun | .funName n => some n | _ => none

/-- The links from function names to nodes. -/
def dotLinks (g : List DotStmt) : List (List Char × Edge) :=
  g.filterMap fun | .link n e => some (n, e) | _ => none

/-! ## Error metrics by name -/

/-- `enum class ErrorMetric`, `/repo/src/minimization/bucket_minimization.hpp:86-98`. -/
inductive ErrorMetric
  | worstCase
  | worstCasePercent
  | worstCaseRelative
  | averageCase
  | averageCaseRelative
  | averageCaseRelativeAdd
  | meanSquared
  | errorRate
  | averageBitFlip
  | worstCaseBitFlip
  deriving DecidableEq, Repr

/-- Absolute difference of the unsigned values at an input. -/
def absErrAt (f g : List (BDD m)) (x : Asg) : ℚ := ((|(uAt f x : Int) - uAt g x| : Int) : ℚ)

/-- `q` is the error of `g` with respect to `f`, both over the variables below `N`, in the metric of
that name. -/
def IsMetric (N : Nat) (f g : List (BDD m)) : ErrorMetric → ℚ → Prop
  | .worstCase, q => IsMax (absErrAt f g) q
  | .worstCasePercent, q => IsMax (fun x => absErrAt f g x / (2 ^ f.length - 1)) q
  | .worstCaseRelative, q => IsMax (relErrAt .baseTwo f g) q
  | .averageCase, q => q = mean N (absErrAt f g)
  | .averageCaseRelative, q => q = mean N (relErrAt .baseTwo f g)
  | .averageCaseRelativeAdd, q => q = mean N (relErrAt .baseTwo f g)
  | .meanSquared, q => q = mean N (fun x => absErrAt f g x ^ 2)
  | .errorRate, q => q = mean N (fun x => if bitsAt f x = bitsAt g x then 0 else 1)
  | .averageBitFlip, q => q = mean N (fun x => (hamming (bitsAt f x) (bitsAt g x) : ℚ))
  | .worstCaseBitFlip, q => IsMax (fun x => (hamming (bitsAt f x) (bitsAt g x) : ℚ)) q

/-- The sizes of inputs (`n` bits over `N` variables) for which the arithmetic of a metric neither
wraps nor overflows; the metrics computed on ADDs also need the index order. -/
def MetricRange (m : Mgr) (N n : Nat) : ErrorMetric → Prop
  | .worstCase => n ≤ 255
  | .worstCasePercent => 1 ≤ n ∧ n ≤ 255
  | .worstCaseRelative => m.Mono ∧ N ≤ 64
  | .averageCase => n + 1 + N ≤ 256
  | .averageCaseRelative => m.Mono ∧ N ≤ 64
  | .averageCaseRelativeAdd => m.Mono ∧ N ≤ 64
  | .meanSquared => 2 * (n + 1) + N ≤ 256
  | .errorRate => 1 ≤ n ∧ N ≤ 1024
  | .averageBitFlip => N ≤ 1023
  | .worstCaseBitFlip => n < 2 ^ 32

end Verif

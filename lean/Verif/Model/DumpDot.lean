import Verif.Model.Parsing

/-!
# `src/util/dump_dot.cpp`

The text written to the stream is a list of statements (`DotStmt`); the header, the comments and the
attributes for the appearance (`DotPresentationConfig`) are left out.  Node addresses are the handles
themselves; strings are lists of characters.
-/

namespace Verif

variable {m : Mgr}

/-- The variables `visited` and `level_nodes`, `/repo/src/util/dump_dot.cpp:15-16`. -/
structure Collected where
  visited : List Edge := []
  levels : List (List Edge) := []

/-- Filling up `level_nodes` to the level and adding the node to it,
`/repo/src/util/dump_dot.cpp:25-30`. -/
def pushLevel : List (List Edge) → Nat → Edge → List (List Edge)
  | [], 0, a => [[a]]
  | [], v + 1, a => [] :: pushLevel [] v a
  | l :: ls, 0, a => (l ++ [a]) :: ls
  | l :: ls, v + 1, a => l :: pushLevel ls v a

/-- `collect_nodes_rec`, `/repo/src/util/dump_dot.cpp:15-42`; the argument `node` is given by its regular
node and complement bit. -/
def collectRec : DD → Bool → Collected → Collected
  | .one, neg, s =>
    if (⟨neg, .one⟩ : Edge) ∈ s.visited then s else { s with visited := ⟨neg, .one⟩ :: s.visited }
  | .node v t c e, neg, s =>
    if (⟨neg, .node v t c e⟩ : Edge) ∈ s.visited then s
    else
      let s := { s with visited := ⟨neg, .node v t c e⟩ :: s.visited,
                        levels := pushLevel s.levels v ⟨neg, .node v t c e⟩ }
      let s := collectRec t neg s
      collectRec e (neg ^^ c) s

/-- The loop over the functions, `/repo/src/util/dump_dot.cpp:102-105`. -/
def collectAll : List (BDD m) → Collected → Collected
  | [], s => s
  | b :: bs, s => collectAll bs (collectRec b.edge.n b.edge.neg s)

/-- The argument of `subscript` passes through an `int` into a `std::size_t`,
`/repo/src/util/dump_dot.cpp:60`. -/
def intArg (n : Nat) : Nat :=
  if n % 2 ^ 32 < 2 ^ 31 then n % 2 ^ 32 else 2 ^ 64 - 2 ^ 32 + n % 2 ^ 32

/-- `subscript`, `/repo/src/util/dump_dot.cpp:60-68`; `std::to_string` of a digit is that digit. -/
def subscript (n : Nat) : List Char :=
  (Nat.toDigits 10 (intArg n)).flatMap (fun c => "&#832".toList ++ [c] ++ ";".toList)

/-- `function_names_`, `/repo/src/util/dump_dot.cpp:73-97`; first argument: `bdds.size()`. -/
def functionNames (k : Nat) (given : List (List Char)) : List (List Char) :=
  if given = [] then
    (if k > 1 then (List.range k).map (fun i => "<<I>f".toList ++ subscript i ++ "</I>>".toList) else []) ++
    (if k = 1 then ["f".toList] else [])
  else given.map (fun f => "<".toList ++ f ++ ">".toList)

/-- `variable_names_`, `/repo/src/util/dump_dot.cpp:108-118`; first argument: `level_nodes.size()`. -/
def variableNames (k : Nat) (given : List (List Char)) : List (List Char) :=
  if given = [] then
    (List.range k).map (fun i => "<I>x".toList ++ subscript (i + 1) ++ "</I>".toList)
  else given

/-- The links from the names to the functions, `/repo/src/util/dump_dot.cpp:207-212`. -/
def linkLoop (bdds : List (BDD m)) : List (List Char) → Nat → Except Fault (List DotStmt)
  | [], _ => .ok []
  | n :: ns, i => do
    let b ← vget bdds i
    let r ← linkLoop bdds ns (i + 1)
    .ok (.link n b.edge :: r)

/-- The nodes of a level, `/repo/src/util/dump_dot.cpp:262-269`. -/
def nodeLoop (names : List (List Char)) (i : Nat) : List Edge → Except Fault (List DotStmt)
  | [] => .ok []
  | n :: ns => do
    let l ← vget names i
    let r ← nodeLoop names i ns
    .ok (.node n l :: r)

/-- The nodes level by level, `/repo/src/util/dump_dot.cpp:250-274`. -/
def levelLoop (names : List (List Char)) : Nat → List (List Edge) → Except Fault (List DotStmt)
  | _, [] => .ok []
  | i, ns :: rest => do
    let d ← nodeLoop names i ns
    let r ← levelLoop names (i + 1) rest
    .ok (d ++ r)

/-- The edges out of a node, `/repo/src/util/dump_dot.cpp:325-336`; `level_nodes` holds no terminals. -/
def nodeEdges (a : Edge) : List DotStmt := match a.n with
  | .one => []
  | .node _ t c e => [.solid a ⟨a.neg, t⟩, .dashed a ⟨a.neg ^^ c, e⟩]

/-- The invisible edges between the levels, `/repo/src/util/dump_dot.cpp:227-240`. -/
def orderEdges (names : List (List Char)) (levels : List (List Edge)) : DotStmt :=
  .invisible (names.take 1) (levels.filterMap List.head? ++ [Edge.one])

/-- The terminals, `/repo/src/util/dump_dot.cpp:288-309`. -/
def terminalStmts (left : Option Bool) : List DotStmt :=
  [.terminal Edge.one true, .terminal Edge.zero false] ++
  (match left with
    | none => []
    | some b => [.invisible [] (if b then [Edge.one, Edge.zero] else [Edge.zero, Edge.one])])

/-- `dump_dot_readable`, `/repo/src/util/dump_dot.cpp:44-343`. -/
def dumpDot (asserts : Bool) (bdds : List (BDD m)) (fnames vnames : List (List Char)) (enforce : Bool)
    (left : Option Bool) : Except Fault (List DotStmt) := do
  check asserts (decide (bdds.length = fnames.length) || decide (fnames = []))
  let fs := functionNames bdds.length fnames
  let levels := (collectAll bdds {}).levels
  let vs := variableNames levels.length vnames
  check asserts (decide (vnames = []) || decide (levels.length ≤ vnames.length))
  let links ← linkLoop bdds fs 0
  let nodes ← levelLoop vs 0 levels
  .ok (fs.map .funName ++ (if enforce && decide (fs.length > 1) then [.invisible fs []] else []) ++
    links ++ [orderEdges fs levels] ++ nodes ++ terminalStmts left ++ levels.flatten.flatMap nodeEdges)

/-- `dump_dot_readable` for one BDD, `/repo/src/util/dump_dot.cpp:365-381`. -/
def dumpDotOne (asserts : Bool) (bdd : BDD m) (fnames vnames : List (List Char)) (left : Option Bool) :
    Except Fault (List DotStmt) :=
  dumpDot asserts [bdd] fnames vnames false left

end Verif

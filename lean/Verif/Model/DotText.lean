import Verif.Model.DumpDot
import Verif.SpecDot

/-!
# The text written by `dump_dot_readable`, `src/util/dump_dot.cpp:44-399`

Character by character, with comments, attributes and line ends.  `addr` gives the addresses of the nodes; a pointer is
printed as `0x` and its hexadecimal digits, as by libstdc++.  `DotConf` holds the strings of `DotPresentationConfig` and
its `float` members in the form in which they are printed.
-/

namespace Verif

variable {m : Mgr}

/-- `output << node`, as at `/repo/src/util/dump_dot.cpp:210`. -/
def ptrText (a : Nat) : List Char := "0x".toList ++ Nat.toDigits 16 a

/-- A line after `indent()`, `/repo/src/util/dump_dot.cpp:125-128`. -/
def ln (indentation : Nat) (s : List Char) : List Char := List.replicate indentation '\t' ++ s ++ ['\n']

/-- A string in quotation marks, as at `/repo/src/util/dump_dot.cpp:169`. -/
def quoted (s : List Char) : List Char := '"' :: s ++ ['"']

/-- The header, `/repo/src/util/dump_dot.cpp:130-145`. -/
def headerText (conf : DotConf) : List Char :=
  ln 0 "digraph \"DD\"{".toList ++
  ln 1 "center = true;".toList ++
  ln 1 "edge [dir = non];".toList ++
  ln 1 ("nodesep = ".toList ++ quoted conf.nodeSep ++ ";".toList) ++
  ln 1 ("ranksep = ".toList ++ quoted conf.rankSep ++ ";".toList) ++
  ln 1 "margin=0;".toList

/-- The node of a function name, `/repo/src/util/dump_dot.cpp:168-170`. -/
def nameText (n : List Char) : List Char := ln 2 (quoted n ++ " [label = ".toList ++ n ++ "];".toList)

/-- The names in their order, `/repo/src/util/dump_dot.cpp:183-187`. -/
def chainText : List (List Char) → List Char
  | [] => []
  | [n] => quoted n
  | n :: ns => quoted n ++ " -> ".toList ++ chainText ns

/-- The nodes of the function names, `/repo/src/util/dump_dot.cpp:152-194`. -/
def namesText (conf : DotConf) (fs : List (List Char)) (enforce : Bool) : List Char :=
  ln 0 [] ++
  ln 1 "# create function name nodes".toList ++
  ln 1 "{".toList ++
  ln 2 "rank = source;".toList ++
  ln 2 ("node [shape = ".toList ++ conf.nameShape ++ ", fixedsize = true, width = ".toList ++ conf.nameWidth ++
    "];".toList) ++
  ln 2 "edge [style = invis];".toList ++
  fs.flatMap nameText ++
  (if enforce && decide (fs.length > 1) then
    ln 0 [] ++ ln 2 "# Arrange function name nodes in correct order".toList ++ ln 2 (chainText fs) else []) ++
  ln 1 "}".toList

/-- The links to the functions, `/repo/src/util/dump_dot.cpp:207-212`. -/
def linkTexts (addr : Edge → Nat) (bdds : List (BDD m)) : List (List Char) → Nat → Except Fault (List Char)
  | [], _ => .ok []
  | n :: ns, i => do
    let b ← vget bdds i
    let r ← linkTexts addr bdds ns (i + 1)
    .ok (ln 2 (quoted n ++ ":s -> ".toList ++ quoted (ptrText (addr b.edge)) ++
      ":n [arrowhead = none, weight = 10];".toList) ++ r)

/-- The first name, `/repo/src/util/dump_dot.cpp:227-231`. -/
def orderStart : List (List Char) → List Char
  | [] => []
  | n :: _ => List.replicate 2 '\t' ++ quoted n ++ " -> ".toList

/-- The invisible connections between the levels, `/repo/src/util/dump_dot.cpp:221-244`; only the first name and the
first node of every level occur. -/
def orderText (addr : Edge → Nat) (fs : List (List Char)) (levels : List (List Edge)) : List Char :=
  ln 1 "{".toList ++
  ln 2 "edge [style = invis];".toList ++
  orderStart fs ++
  ln 2 ((levels.filterMap List.head?).flatMap (fun n => quoted (ptrText (addr n)) ++ " -> ".toList) ++
    quoted (ptrText (addr Edge.one)) ++ ";".toList) ++
  ln 1 "}".toList

/-- The nodes of a level, `/repo/src/util/dump_dot.cpp:262-269`. -/
def nodeTexts (conf : DotConf) (addr : Edge → Nat) (names : List (List Char)) (i : Nat) :
    List Edge → Except Fault (List Char)
  | [] => .ok []
  | n :: ns => do
    let l ← vget names i
    let r ← nodeTexts conf addr names i ns
    .ok (ln 2 (quoted (ptrText (addr n)) ++ " [label = <".toList ++ l ++ ">, shape = ".toList ++ conf.nodeShape ++
      ", fixedsize=true, width=".toList ++ conf.nodeWidth ++ "];".toList) ++ r)

/-- The nodes level by level, `/repo/src/util/dump_dot.cpp:250-274`. -/
def levelTexts (conf : DotConf) (addr : Edge → Nat) (names : List (List Char)) :
    Nat → List (List Edge) → Except Fault (List Char)
  | _, [] => .ok []
  | i, [] :: rest => levelTexts conf addr names (i + 1) rest
  | i, (n :: ns) :: rest => do
    let d ← nodeTexts conf addr names i (n :: ns)
    let r ← levelTexts conf addr names (i + 1) rest
    .ok (ln 0 [] ++ ln 1 ("# create nodes for level ".toList ++ Nat.toDigits 10 i) ++ ln 1 "{".toList ++
      ln 2 "rank = same;".toList ++ d ++ ln 1 "}".toList ++ r)

/-- The order of the terminals, `/repo/src/util/dump_dot.cpp:298-309`. -/
def terminalOrder (addr : Edge → Nat) : Option Bool → List Char
  | none => []
  | some b =>
    ln 0 [] ++ ln 2 "# Arrange terminal nodes in correct order".toList ++ ln 2 "edge [style = invis];".toList ++
    ln 2 (quoted (ptrText (addr (if b then Edge.one else Edge.zero))) ++ " -> ".toList ++
      quoted (ptrText (addr (if b then Edge.zero else Edge.one))) ++ ";".toList)

/-- The terminals, `/repo/src/util/dump_dot.cpp:280-312`. -/
def terminalText (conf : DotConf) (addr : Edge → Nat) (left : Option Bool) : List Char :=
  ln 0 [] ++
  ln 1 "# create terminal nodes".toList ++
  ln 1 "{".toList ++
  ln 2 "rankdir=\"LR\"; rank = same;".toList ++
  ln 2 (quoted (ptrText (addr Edge.one)) ++ " [label = <&#8868;>, shape = ".toList ++ conf.terminalShape ++
    ", width=".toList ++ conf.terminalWidth ++ ", fixedsize=true;]".toList) ++
  ln 2 (quoted (ptrText (addr Edge.zero)) ++ " [label = <&#8869;>, shape = ".toList ++ conf.terminalShape ++
    ", width=".toList ++ conf.terminalWidth ++ ", fixedsize=true];".toList) ++
  terminalOrder addr left ++
  ln 1 "}".toList

/-- The edges out of a node, `/repo/src/util/dump_dot.cpp:325-336`; `level_nodes` holds no terminals. -/
def edgeTexts (addr : Edge → Nat) (a : Edge) : List Char := match a.n with
  | .one => []
  | .node _ t c e =>
    ln 1 (quoted (ptrText (addr a)) ++ " -> ".toList ++ quoted (ptrText (addr ⟨a.neg, t⟩)) ++
      " [arrowhead = none];".toList) ++
    ln 1 (quoted (ptrText (addr a)) ++ " -> ".toList ++ quoted (ptrText (addr ⟨a.neg ^^ c, e⟩)) ++
      " [arrowhead = none, style = dashed];".toList)

/-- `dump_dot_readable`, `/repo/src/util/dump_dot.cpp:44-343`: the text written to the stream. -/
def dumpDotText (asserts : Bool) (conf : DotConf) (addr : Edge → Nat) (bdds : List (BDD m))
    (fnames vnames : List (List Char)) (enforce : Bool) (left : Option Bool) : Except Fault (List Char) := do
  check asserts (decide (bdds.length = fnames.length) || decide (fnames = []))
  let fs := functionNames bdds.length fnames
  let levels := (collectAll bdds {}).levels
  let vs := variableNames levels.length vnames
  check asserts (decide (vnames = []) || decide (levels.length ≤ vnames.length))
  let links ← linkTexts addr bdds fs 0
  let nodes ← levelTexts conf addr vs 0 levels
  .ok (headerText conf ++ namesText conf fs enforce ++
    (ln 0 [] ++ ln 1 "# link function name nodes to the BDDs".toList ++ ln 1 "{".toList ++ links ++
      ln 1 "}".toList) ++
    orderText addr fs levels ++ nodes ++ terminalText conf addr left ++
    (ln 0 [] ++ ln 1 "# create inter-node high-/low-child connections".toList ++
      levels.flatten.flatMap (edgeTexts addr)) ++
    ln 0 "}".toList)

/-- `dump_dot_readable` for one BDD, `/repo/src/util/dump_dot.cpp:365-381`. -/
def dumpDotTextOne (asserts : Bool) (conf : DotConf) (addr : Edge → Nat) (bdd : BDD m)
    (fnames vnames : List (List Char)) (left : Option Bool) : Except Fault (List Char) :=
  dumpDotText asserts conf addr [bdd] fnames vnames false left

/-- The contents of the files by name. -/
abbrev Files := List Char → Option (List Char)

/-- `dump_dot_readable_to_file`, `/repo/src/util/dump_dot.cpp:345-363`: the files after the call.  `canOpen` says which
files can be opened for writing; everything written to an open file arrives. -/
def dumpDotToFile (asserts : Bool) (conf : DotConf) (addr : Edge → Nat) (canOpen : List Char → Bool) (files : Files)
    (bdds : List (BDD m)) (filename : List Char) (fnames vnames : List (List Char)) (enforce : Bool)
    (left : Option Bool) : Except Fault Files :=
  if canOpen filename then do
    let t ← dumpDotText asserts conf addr bdds fnames vnames enforce left
    .ok (fun n => if n = filename then some t else files n)
  else .ok files

/-- `dump_dot_readable_to_file` for one BDD, `/repo/src/util/dump_dot.cpp:383-398`. -/
def dumpDotToFileOne (asserts : Bool) (conf : DotConf) (addr : Edge → Nat) (canOpen : List Char → Bool)
    (files : Files) (bdd : BDD m) (filename : List Char) (fnames vnames : List (List Char)) (left : Option Bool) :
    Except Fault Files :=
  dumpDotToFile asserts conf addr canOpen files [bdd] filename fnames vnames false left

end Verif
